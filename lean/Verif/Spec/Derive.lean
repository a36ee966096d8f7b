import Verif.Spec.Tree
import Verif.Spec.Names
import Verif.Model.Types

/-
What the content of an element means as a value of a declared type, without any visitor state: which
children and attributes belong to which field, and how many there may be.  Also: what can be wrong with it.
-/
namespace SX.Spec

/-- What is wrong first: below which element (the way down to it), what, and whether this shows only at the end
of the element. -/
structure Defect where
  rel : List StackElem
  kind : ErrKind
  late : Bool

/-- A child element: its name and position, its value as any type, what is wrong with it as any type
(where, relative to the child, and what), and what is wrong with it first. -/
structure Kid where
  node : StackElem
  as : Ty → Option Val
  bad : Ty → List StackElem → ErrKind → Prop
  err : Ty → Option Defect

def Kid.name (k : Kid) : EName := k.node.name.expanded

/-- Content of an element: attributes, child elements, character data. -/
structure Body where
  attrs : List XAttr
  kids : List Kid
  text : String

/-- The children with a given name, in document order. -/
def named (n : EName) (ks : List Kid) : List Kid := ks.filter fun k => k.name == n

/-- The values of all of them. -/
def allAs (ty : Ty) : List Kid → Option (List Val)
  | [] => some []
  | k :: ks =>
    match k.as ty, allAs ty ks with
    | some v, some vs => some (v :: vs)
    | _, _ => none

/-- The value of a field of type `T`, `Option<T>` or `Vec<T>` from its children; `absent` if there are none. -/
def slotValue (s : Slot) (absent : Option Val) : List Kid → Option Val
  | [] => absent
  | k :: ks =>
    match s.card with
    | .one => if ks.isEmpty then k.as s.ty else none
    | .opt => if ks.isEmpty then (k.as s.ty).map fun v => .opt (some v) else none
    | .many => (allAs s.ty (k :: ks)).map .vec

/-- No children and no declared default. -/
def slotAbsent (s : Slot) : Option Val :=
  match s.card with
  | .one => none
  | .opt => some (.opt none)
  | .many => some (.vec [])

/-- A child is wrong in itself, or it is the second one of a field that takes one. -/
def slotBad (s : Slot) (ks : List Kid) (rel : List StackElem) (kind : ErrKind) : Prop :=
  (∃ k ∈ ks, ∃ rel', rel = k.node :: rel' ∧ k.bad s.ty rel' kind) ∨
  (s.card ≠ .many ∧ ∃ k0 k ks', ks = k0 :: k :: ks' ∧ rel = [k.node] ∧ kind = .deserializer (.duplicateElement k.name))

/-- The attributes with a given name. -/
def attrsNamed (n : EName) (l : List XAttr) : List XAttr := l.filter fun a => a.name.expanded == n

/-- The value of an attribute field. -/
def attrValue (optional : Bool) (t : TextTy) (absent : Option Val) : List XAttr → Option Val
  | [] => absent
  | [a] =>
    match t.parse a.value with
    | .ok v => some (if optional then .opt (some (.text v)) else .text v)
    | _ => none
  | _ => none

def attrAbsent (optional : Bool) : Option Val := if optional then some (.opt none) else none

def attrBad (t : TextTy) (n : EName) (l : List XAttr) (rel : List StackElem) (kind : ErrKind) : Prop :=
  rel = [] ∧ ((∃ a ∈ l, ∃ e, t.parse a.value = .err e ∧ kind = .deserializer (.text e)) ∨
    (2 ≤ l.length ∧ kind = .deserializer (.duplicateAttribute n)))

/-- The variant with a given name. -/
def variantOf (d : EnumDef) (n : EName) : Option Nat := d.variants.findIdx? fun v => !v.skip && v.name.expanded == n

/-- The children that belong to an enum, with their variant numbers. -/
def choices (d : EnumDef) (ks : List Kid) : List (Nat × Kid) :=
  ks.filterMap fun k => (variantOf d k.name).map fun i => (i, k)

/-- The value of an enum: all its children are for one variant. -/
def enumValue (d : EnumDef) (ks : List Kid) : Option Val :=
  match choices d ks with
  | [] => none
  | (i, k) :: rest =>
    if rest.all (fun c => c.1 == i) then
      match d.variants[i]? with
      | none => none
      | some v =>
        match v.slot with
        | none => some (.enm i none)
        | some s => (slotValue s none (k :: rest.map Prod.snd)).map fun p => .enm i (some p)
    else none

def enumBad (d : EnumDef) (ks : List Kid) (rel : List StackElem) (kind : ErrKind) : Prop :=
  ∃ i k rest v, choices d ks = (i, k) :: rest ∧ d.variants[i]? = some v ∧
    ((∃ s, v.slot = some s ∧ slotBad s (k :: (rest.filter fun c => c.1 == i).map Prod.snd) rel kind) ∨
     (∃ c ∈ rest, c.1 ≠ i ∧ rel = [c.2.node] ∧ kind = .deserializer (.unexpectedElement c.2.name v.name.expanded)))

def enumEmpty (d : EnumDef) (ks : List Kid) (rel : List StackElem) (kind : ErrKind) : Prop :=
  choices d ks = [] ∧ rel = [] ∧ kind = .deserializer (.cantBeEmpty d.ident)

/-- Is there an element field with this name? -/
def declaredElem (fields : List Field) (n : EName) : Bool :=
  fields.any fun f =>
    match f.kind with
    | .element _ => f.name.expanded == n
    | _ => false

/-- The children that are not for the struct's own fields. -/
def strangers (fields : List Field) (ks : List Kid) : List Kid := ks.filter fun k => !declaredElem fields k.name

/-- The types of the flattened fields. -/
def flatTypes : List Field → List Nat
  | [] => []
  | f :: fs =>
    match f.kind with
    | .flatten e => e :: flatTypes fs
    | _ => flatTypes fs

/-- The children that get past flattened fields of types `es`: those before the first one that is accepted
(a flattened field that has accepted a child lets nothing pass any more). -/
def past (env : Env) : List Nat → List Kid → List Kid
  | [], ks => ks
  | e :: es, ks => past env es (ks.takeWhile fun k => (variantOf (env.enm e) k.name).isNone)

/-- The value of a field; `earlier`: the flattened fields before it. -/
def fieldValue (env : Env) (all : List Field) (b : Body) (earlier : List Nat) (f : Field) : Option Val :=
  match f.kind with
  | .element s => slotValue s (f.default.or (slotAbsent s)) (named f.name.expanded b.kids)
  | .attribute optional t => attrValue optional t (f.default.or (attrAbsent optional)) (attrsNamed f.name.expanded b.attrs)
  | .flatten e => enumValue (env.enm e) (past env earlier (strangers all b.kids))
  | .text _ => none

/-- What can be wrong with what is present for a field. -/
def fieldBad (env : Env) (all : List Field) (b : Body) (earlier : List Nat) (f : Field) (rel : List StackElem)
    (kind : ErrKind) : Prop :=
  match f.kind with
  | .element s => slotBad s (named f.name.expanded b.kids) rel kind
  | .attribute _ t => attrBad t f.name.expanded (attrsNamed f.name.expanded b.attrs) rel kind
  | .flatten e => enumBad (env.enm e) (past env earlier (strangers all b.kids)) rel kind
  | .text _ => False

/-- A required field is not there. -/
def fieldMissing (env : Env) (all : List Field) (b : Body) (earlier : List Nat) (f : Field) (rel : List StackElem)
    (kind : ErrKind) : Prop :=
  match f.kind with
  | .element s => named f.name.expanded b.kids = [] ∧ f.default = none ∧ s.card = .one ∧ rel = [] ∧
      kind = .deserializer (.missingElement f.name.expanded)
  | .attribute optional _ => attrsNamed f.name.expanded b.attrs = [] ∧ f.default = none ∧ optional = false ∧ rel = [] ∧
      kind = .deserializer (.missingAttribute f.name.expanded)
  | .flatten e => enumEmpty (env.enm e) (past env earlier (strangers all b.kids)) rel kind
  | .text _ => False

/-- The values of a list of fields, in order. -/
def fieldsValue (env : Env) (all : List Field) (b : Body) : List Nat → List Field → Option (List Val)
  | _, [] => some []
  | earlier, f :: fs =>
    match fieldValue env all b earlier f, fieldsValue env all b (earlier ++ flatTypes [f]) fs with
    | some v, some vs => some (v :: vs)
    | _, _ => none

def structValue (env : Env) (fields : List Field) (b : Body) : Option Val :=
  (fieldsValue env fields b [] fields).map .strct

/-- The value of some content as some type. -/
def bodyValue (env : Env) (b : Body) : Ty → Option Val
  | .text t =>
    match b.kids with
    | [] =>
      match t.parse b.text with
      | .ok v => some (.text v)
      | _ => none
    | _ => none
  | .strct i => structValue env (env.strct i).fields b
  | .enm i => enumValue (env.enm i) b.kids

/-- What is wrong with some content as some type: where, below the element, and what. -/
def bodyBad (env : Env) (b : Body) : Ty → List StackElem → ErrKind → Prop
  | .text t => fun rel kind =>
    (b.kids = [] ∧ rel = [] ∧ ∃ e, t.parse b.text = .err e ∧ kind = .deserializer (.text e)) ∨
    (∃ k ks, b.kids = k :: ks ∧ rel = [k.node] ∧ kind = .msg (.elementInString k.node.name))
  | .strct i => fun rel kind => ∃ pre f post, (env.strct i).fields = pre ++ f :: post ∧
      (fieldBad env (env.strct i).fields b (flatTypes pre) f rel kind ∨
       fieldMissing env (env.strct i).fields b (flatTypes pre) f rel kind)
  | .enm i => fun rel kind => enumBad (env.enm i) b.kids rel kind ∨ enumEmpty (env.enm i) b.kids rel kind

/-! ### The first defect in document order -/

/-- The first complaint about an item of a list; a complaint may depend on the items before it. -/
def scan {α β : Type} (f : List α → α → Option β) (seen : List α) : List α → Option β
  | [] => none
  | a :: l =>
    match f seen a with
    | some b => some b
    | none => scan f (seen ++ [a]) l

/-- A further child for a field that already has the children `seen`: one too many, or wrong in itself. -/
def slotErr (s : Slot) (seen : List Kid) (k : Kid) : Option (List StackElem × ErrKind) :=
  if s.card ≠ .many ∧ seen ≠ [] then some ([k.node], .deserializer (.duplicateElement k.name))
  else (k.err s.ty).map fun d => (k.node :: d.rel, d.kind)

/-- A further child for the variant `j` of an enum. -/
def variantErr (d : EnumDef) (j : Nat) (seen : List Kid) (k : Kid) : Option (List StackElem × ErrKind) :=
  match d.variants[j]? with
  | none => none
  | some v =>
    match v.slot with
    | none => none
    | some s => slotErr s seen k

/-- A further child for an enum: unknown ones are ignored, those for another variant than the first are wrong. -/
def enumErr (d : EnumDef) (seen : List Kid) (k : Kid) : Option (List StackElem × ErrKind) :=
  match variantOf d k.name, choices d seen with
  | none, _ => none
  | some j, [] => variantErr d j [] k
  | some j, (i, k0) :: rest =>
    if j = i then variantErr d i (k0 :: rest.map Prod.snd) k
    else
      match d.variants[i]? with
      | none => none
      | some v => some ([k.node], .deserializer (.unexpectedElement k.name v.name.expanded))

/-- A further child for the flattened fields: it is for the first one that has children or knows its name. -/
def flatErr (env : Env) : List Nat → List Kid → Kid → Option (List StackElem × ErrKind)
  | [], _, _ => none
  | e :: es, seen, k =>
    if choices (env.enm e) seen = [] ∧ variantOf (env.enm e) k.name = none then flatErr env es seen k
    else enumErr (env.enm e) seen k

/-- The element field with a given name. -/
def elemSlot : List Field → EName → Option Slot
  | [], _ => none
  | f :: fs, n =>
    match f.kind with
    | .element s => if f.name.expanded = n then some s else elemSlot fs n
    | _ => elemSlot fs n

/-- The attribute field with a given name. -/
def attrType : List Field → EName → Option TextTy
  | [], _ => none
  | f :: fs, n =>
    match f.kind with
    | .attribute _ t => if f.name.expanded = n then some t else attrType fs n
    | _ => attrType fs n

/-- A further child for a struct. -/
def structErr (env : Env) (fields : List Field) (seen : List Kid) (k : Kid) : Option (List StackElem × ErrKind) :=
  match elemSlot fields k.name with
  | some s => slotErr s (named k.name seen) k
  | none => flatErr env (flatTypes fields) (strangers fields seen) k

/-- A further attribute for a struct: one too many, or wrong in itself. -/
def attrErr (fields : List Field) (seen : List XAttr) (a : XAttr) : Option ErrKind :=
  match attrType fields a.name.expanded with
  | none => none
  | some t =>
    if attrsNamed a.name.expanded seen = [] then
      match t.parse a.value with
      | .err e => some (.deserializer (.text e))
      | _ => none
    else some (.deserializer (.duplicateAttribute a.name.expanded))

/-- The first field in order of declaration that is required and not there. -/
def gap (env : Env) (all : List Field) (b : Body) : List Nat → List Field → Option ErrKind
  | _, [] => none
  | earlier, f :: fs =>
    let rest := gap env all b (earlier ++ flatTypes [f]) fs
    match f.kind with
    | .element s =>
      if named f.name.expanded b.kids = [] ∧ f.default.isNone ∧ s.card = .one then
        some (.deserializer (.missingElement f.name.expanded))
      else rest
    | .attribute optional _ =>
      if attrsNamed f.name.expanded b.attrs = [] ∧ f.default.isNone ∧ optional = false then
        some (.deserializer (.missingAttribute f.name.expanded))
      else rest
    | .flatten e =>
      if choices (env.enm e) (past env earlier (strangers all b.kids)) = [] then
        some (.deserializer (.cantBeEmpty (env.enm e).ident))
      else rest
    | .text _ => rest

/-- The first defect of some content as some type: attributes come before children and children before
anything that is not there. -/
def bodyErr (env : Env) (b : Body) : Ty → Option Defect
  | .text t =>
    match b.kids with
    | [] =>
      match t.parse b.text with
      | .err e => some ⟨[], .deserializer (.text e), true⟩
      | _ => none
    | k :: _ => some ⟨[k.node], .msg (.elementInString k.node.name), false⟩
  | .strct i =>
    match scan (attrErr (env.strct i).fields) [] b.attrs with
    | some kind => some ⟨[], kind, false⟩
    | none =>
      match scan (structErr env (env.strct i).fields) [] b.kids with
      | some (rel, kind) => some ⟨rel, kind, false⟩
      | none => (gap env (env.strct i).fields b [] (env.strct i).fields).map fun kind => ⟨[], kind, true⟩
  | .enm i =>
    match scan (enumErr (env.enm i)) [] b.kids with
    | some (rel, kind) => some ⟨rel, kind, false⟩
    | none => if choices (env.enm i) b.kids = [] then some ⟨[], .deserializer (.cantBeEmpty (env.enm i).ident), true⟩ else none

/-- The child elements. -/
def kids (env : Env) : Forest → List Kid
  | .nil => []
  | .elem n a _ p ch _ rest =>
    { node := { name := n, pos := p }
      as := bodyValue env { attrs := a, kids := kids env ch, text := ch.text }
      bad := bodyBad env { attrs := a, kids := kids env ch, text := ch.text }
      err := bodyErr env { attrs := a, kids := kids env ch, text := ch.text } } :: kids env rest
  | .chars _ _ _ rest => kids env rest
  | .misc _ _ rest => kids env rest

def Elem.body (env : Env) (x : Elem) : Body := { attrs := x.attrs, kids := kids env x.children, text := x.children.text }

/-- The error that a defect of the root element is reported as: with the start of the innermost element
concerned, or the end of the root if the defect shows only there. -/
def reported (x : Elem) (df : Defect) : Error :=
  { kind := df.kind
    stack := { name := x.name, pos := x.pos } :: df.rel
    pos := if df.late then x.endPos else (df.rel.getLast?.map (·.pos)).getD x.pos }

/-- The declarations the derive macros can handle unambiguously: no two element fields (attribute fields,
variants) of a type have the same name; variants without a namespace come before those with a prefix for the empty namespace (see
C09); no text fields or skipped variants, for which `Deserialize` cannot be derived. -/
structure EnvOk (env : Env) : Prop where
  elems : ∀ i (p q : Nat) (f g : Field) s s', (env.strct i).fields[p]? = some f → (env.strct i).fields[q]? = some g →
    f.kind = .element s → g.kind = .element s' → f.name.expanded = g.name.expanded → p = q
  attrs : ∀ i (p q : Nat) (f g : Field) o t o' t', (env.strct i).fields[p]? = some f → (env.strct i).fields[q]? = some g →
    f.kind = .attribute o t → g.kind = .attribute o' t' → f.name.expanded = g.name.expanded → p = q
  noText : ∀ i (f : Field) t, f ∈ (env.strct i).fields → f.kind ≠ .text t
  variants : ∀ i (p q : Nat) (v w : Variant), (env.enm i).variants[p]? = some v → (env.enm i).variants[q]? = some w →
    v.name.expanded = w.name.expanded → p = q
  noneFirst : ∀ i, NoneFirst ((env.enm i).variants.map Variant.name)
  noSkip : ∀ i (v : Variant), v ∈ (env.enm i).variants → v.skip = false

end SX.Spec
