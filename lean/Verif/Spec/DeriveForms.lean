import Verif.Spec.Derive

/-
Notions used in the statements about derived deserialization: documents up to prefixes and positions,
children by name, unknown content.
-/
namespace SX.Spec

/-- A name without its prefix. -/
def plainName (n : QName) : QName := { loc := n.expanded.loc, ns := some n.expanded.ns, pfx := none }

/-- An attribute without prefix. -/
def _root_.SX.XAttr.plain (a : XAttr) : XAttr := { name := plainName a.name, value := a.value }

/-- Content without prefixes, namespace declarations and positions. -/
def Forest.plain : Forest → Forest
  | .nil => .nil
  | .elem n a _ _ ch _ rest => .elem (plainName n) (a.map XAttr.plain) [] ⟨0, 0⟩ ch.plain ⟨0, 0⟩ rest.plain
  | .chars s c _ rest => .chars s c ⟨0, 0⟩ rest.plain
  | .misc m _ rest => .misc m ⟨0, 0⟩ rest.plain

def Elem.plain (x : Elem) : Elem :=
  { name := plainName x.name, attrs := x.attrs.map XAttr.plain, ns := [], pos := ⟨0, 0⟩, children := x.children.plain,
    endPos := ⟨0, 0⟩ }

/-- A child reduced to its name and its values. -/
def Kid.canon (k : Kid) : Kid :=
  { node := { name := plainName k.node.name, pos := ⟨0, 0⟩ }, as := k.as, bad := fun _ _ _ => False
    err := fun _ => none }

/-- The child elements. -/
def Forest.children : Forest → List Elem
  | .nil => []
  | .elem name attrs ns pos ch endPos rest => { name, attrs, ns, pos, children := ch, endPos } :: rest.children
  | .chars _ _ _ rest => rest.children
  | .misc _ _ rest => rest.children

/-- The child elements with a given name, in document order. -/
def Forest.childrenNamed (n : EName) (f : Forest) : List Elem := f.children.filter fun x => x.name.expanded == n

/-- What a type makes of a child element. -/
inductive Use where
  /-- Not declared. -/
  | unknown
  /-- Declared, but only its presence matters (unit variants). -/
  | unit
  /-- Declared with a type. -/
  | as (ty : Ty)

/-- What an enum makes of a child named `n`. -/
def enumUse (d : EnumDef) (n : EName) : Use :=
  match variantOf d n with
  | none => .unknown
  | some i =>
    match d.variants[i]? with
    | none => .unknown
    | some v =>
      match v.slot with
      | none => .unit
      | some s => .as s.ty

/-- What the flattened fields make of it: the first one that declares it counts. -/
def flatUse (env : Env) : List Nat → EName → Use
  | [], _ => .unknown
  | e :: es, n =>
    match enumUse (env.enm e) n with
    | .unknown => flatUse env es n
    | u => u

/-- What the element fields of a struct make of it. -/
def elemUse : List Field → EName → Use
  | [], _ => .unknown
  | f :: fs, n =>
    match f.kind with
    | .element s => if f.name.expanded = n then .as s.ty else elemUse fs n
    | _ => elemUse fs n

/-- What a type makes of a child named `n`. -/
def use (env : Env) (ty : Ty) (n : EName) : Use :=
  match ty with
  | .text _ => .unit
  | .strct i =>
    match elemUse (env.strct i).fields n with
    | .unknown => flatUse env (flatTypes (env.strct i).fields) n
    | u => u
  | .enm i => enumUse (env.enm i) n

/-- Is there an attribute field with this name? -/
def declaredAttr (fields : List Field) (n : EName) : Bool :=
  fields.any fun f =>
    match f.kind with
    | .attribute _ _ => f.name.expanded == n
    | _ => false

/-- The attributes a type declares. -/
def knownAttrs (env : Env) (ty : Ty) (l : List XAttr) : List XAttr :=
  match ty with
  | .strct i => l.filter fun a => declaredAttr (env.strct i).fields a.name.expanded
  | _ => []

/-- Content with everything removed, at all levels, that the type does not declare: undeclared attributes and
child elements, text that is not the content of a text type, comments and processing instructions. -/
def prune (env : Env) : Ty → Forest → Forest
  | _, .nil => .nil
  | ty, .chars s c p rest =>
    match ty with
    | .text t => .chars s c p (prune env (.text t) rest)
    | ty => prune env ty rest
  | ty, .misc _ _ rest => prune env ty rest
  | ty, .elem n a ns p ch ep rest =>
    match use env ty n.expanded with
    | .unknown => prune env ty rest
    | .unit => .elem n [] ns p .nil ep (prune env ty rest)
    | .as ty' => .elem n (knownAttrs env ty' a) ns p (prune env ty' ch) ep (prune env ty rest)

def Elem.prune (env : Env) (ty : Ty) (x : Elem) : Elem :=
  { x with attrs := knownAttrs env ty x.attrs, children := Spec.prune env ty x.children }

/-- One child offered to flattened fields (each with the children it has accepted): a field accepts what it
declares, and, once it has accepted something, anything. -/
def offer (env : Env) (k : Kid) : List (Nat × List Kid) → List (Nat × List Kid)
  | [] => []
  | (e, got) :: rest =>
    if !got.isEmpty || (variantOf (env.enm e) k.name).isSome then (e, got ++ [k]) :: rest
    else (e, got) :: offer env k rest

/-- All children not declared by the struct itself offered to the flattened fields in declaration order. -/
def offerAll (env : Env) (fields : List Field) (ks : List Kid) : List (Nat × List Kid) :=
  (strangers fields ks).foldl (fun st k => offer env k st) ((flatTypes fields).map fun e => (e, []))

end SX.Spec
