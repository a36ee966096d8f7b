import Verif.Spec.Writer
import Verif.Model.Types

/-
Values of declared types, and the document that represents a value, without builders, writers or namespaces:
which attributes and child elements an element has.
-/
namespace SX.Spec

/-- Content of an element, with expanded names. -/
inductive EForest where
  | nil
  | elem (name : EName) (attrs : List (EName × String)) (children rest : EForest)
  | chars (s : String) (rest : EForest)
  deriving DecidableEq, Repr

def EForest.events : EForest → List EEvent
  | .nil => []
  | .elem n a c rest => .start n a :: (c.events ++ .stop :: rest.events)
  | .chars s rest => .chars s :: rest.events

def EForest.append : EForest → EForest → EForest
  | .nil, g => g
  | .elem n a c rest, g => .elem n a c (rest.append g)
  | .chars s rest, g => .chars s (rest.append g)

/-! ### Well-typed values -/

/-- The values in a `T`, an `Option<T>` or a `Vec<T>`. -/
def valuesOf : Card → Val → List Val
  | .one, v => [v]
  | .opt, .opt (some v) => [v]
  | .many, .vec l => l
  | _, _ => []

/-- A `T`, an `Option` or a `Vec`. -/
def CardOk : Card → Val → Prop
  | .one, _ => True
  | .opt, v => ∃ o, v = .opt o
  | .many, v => ∃ l, v = .vec l

/-- A value of a text type. -/
def TextOk (t : TextTy) (v : Val) : Prop := ∃ tv, v = .text tv ∧ (t.toText tv).isSome = true

/-- A value of the right shape for a field (apart from what is in it). -/
def Shape : Kind → Val → Prop
  | .element s, v => CardOk s.card v
  | .attribute false t, v => TextOk t v
  | .attribute true t, v => v = .opt none ∨ ∃ w, v = .opt (some w) ∧ TextOk t w
  | .flatten _, _ => True
  | .text t, v => TextOk t v

/-- The values of a type. -/
inductive HasTy (env : Env) : Ty → Val → Prop where
  | text {t : TextTy} {tv : TVal} (h : (t.toText tv).isSome = true) : HasTy env (.text t) (.text tv)
  | strct {i : Nat} {vs : List Val} (len : vs.length = (env.strct i).fields.length)
      (shape : ∀ (p : Nat) (f : Field) (v : Val), (env.strct i).fields[p]? = some f → vs[p]? = some v → Shape f.kind v)
      (elems : ∀ (p : Nat) (f : Field) (s : Slot) (v w : Val), (env.strct i).fields[p]? = some f → vs[p]? = some v →
        f.kind = .element s → w ∈ valuesOf s.card v → HasTy env s.ty w)
      (flats : ∀ (p : Nat) (f : Field) (e : Nat) (v : Val), (env.strct i).fields[p]? = some f → vs[p]? = some v →
        f.kind = .flatten e → HasTy env (.enm e) v) : HasTy env (.strct i) (.strct vs)
  | unit {i j : Nat} {w : Variant} (hv : (env.enm i).variants[j]? = some w) (hs : w.slot = none) :
      HasTy env (.enm i) (.enm j none)
  | payload {i j : Nat} {w : Variant} {s : Slot} {p : Val} (hv : (env.enm i).variants[j]? = some w) (hs : w.slot = some s)
      (card : CardOk s.card p) (items : ∀ x ∈ valuesOf s.card p, HasTy env s.ty x) :
      HasTy env (.enm i) (.enm j (some p))

/-! ### The declared structure -/

/-- A child element to be: its name, and its type and value; `none` for a unit variant. -/
structure Item where
  name : EName
  value : Option (Ty × Val)

/-- The text of an attribute, if it is there. -/
def attrText (optional : Bool) (t : TextTy) : Val → Option String
  | .text tv => if optional then none else t.toText tv
  | .opt (some (.text tv)) => if optional then t.toText tv else none
  | _ => none

/-- The attributes of a struct: those of its attribute fields. -/
def structAttrs (fields : List Field) (vs : List Val) : List (EName × String) :=
  (fields.zip vs).filterMap fun x =>
    match x.1.kind with
    | .attribute o t => (attrText o t x.2).map fun s => (x.1.name.expanded, s)
    | _ => none

/-- The child elements of a field. -/
def fieldItems (s : Slot) (name : EName) (v : Val) : List Item :=
  (valuesOf s.card v).map fun x => { name, value := some (s.ty, x) }

/-- The child elements of an enum: those of its variant.  (None for skipped variants, see C33.) -/
def variantItems (d : EnumDef) : Val → List Item
  | .enm j p =>
    match d.variants[j]? with
    | none => []
    | some w =>
      if w.skip then []
      else
        match w.slot, p with
        | none, none => [{ name := w.name.expanded, value := none }]
        | some s, some p => fieldItems s w.name.expanded p
        | _, _ => []
  | _ => []

/-- The child elements of a struct: of its element fields, then of its flattened fields. -/
def structItems (env : Env) (fields : List Field) (vs : List Val) : List Item :=
  ((fields.zip vs).flatMap fun x =>
    match x.1.kind with
    | .element s => fieldItems s x.1.name.expanded x.2
    | _ => []) ++
  (fields.zip vs).flatMap fun x =>
    match x.1.kind with
    | .flatten e => variantItems (env.enm e) x.2
    | _ => []

/-- The child elements, written out. -/
inductive Shows (env : Env) : List Item → EForest → Prop where
  | nil : Shows env [] .nil
  | unit {n : EName} {l : List Item} {f : EForest} (rest : Shows env l f) : Shows env ({ name := n, value := none } :: l) (.elem n [] .nil f)
  | text {n : EName} {t : TextTy} {tv : TVal} {s : String} {l : List Item} {f : EForest} (h : t.toText tv = some s) (rest : Shows env l f) :
      Shows env ({ name := n, value := some (.text t, .text tv) } :: l) (.elem n [] (.chars s .nil) f)
  | strct {n : EName} {i : Nat} {vs : List Val} {g : EForest} {l : List Item} {f : EForest}
      (children : Shows env (structItems env (env.strct i).fields vs) g) (rest : Shows env l f) :
      Shows env ({ name := n, value := some (.strct i, .strct vs) } :: l) (.elem n (structAttrs (env.strct i).fields vs) g f)
  | enm {n : EName} {i j : Nat} {p : Option Val} {g : EForest} {l : List Item} {f : EForest}
      (children : Shows env (variantItems (env.enm i) (.enm j p)) g) (rest : Shows env l f) :
      Shows env ({ name := n, value := some (.enm i, .enm j p) } :: l) (.elem n [] g f)

/-- The document that represents a value. -/
def Represents (env : Env) (name : EName) (ty : Ty) (v : Val) (attrs : List (EName × String)) (content : EForest) : Prop :=
  Shows env [{ name, value := some (ty, v) }] (.elem name attrs content .nil)

/-- No two attribute fields of a struct have the same name. -/
def AttrsDistinct (env : Env) : Prop :=
  ∀ i (p q : Nat) (f g : Field) o t o' t', (env.strct i).fields[p]? = some f → (env.strct i).fields[q]? = some g →
    f.kind = .attribute o t → g.kind = .attribute o' t' → f.name.expanded = g.name.expanded → p = q

/-! ### Declared namespaces -/

/-- The URLs of declared mappings. -/
def urls (l : List (String × String)) : List String := l.map Prod.snd

/-- The namespaces a type declares. -/
def declaredNs (env : Env) : Ty → List (String × String)
  | .text _ => []
  | .strct i => (env.strct i).namespaces
  | .enm i => (env.enm i).namespaces

/-- The name of an element: in a built-in or declared namespace, or in none. -/
def ElemNsOk (us : List String) (n : EName) : Prop := n.ns = xmlNs ∨ n.ns ∈ us ∨ n.ns = ""

/-- Every name uses a namespace that its type declares (C37), or none. -/
structure NamesDeclared (env : Env) : Prop where
  mappings : ∀ ty, ∀ x ∈ declaredNs env ty, MayDeclare x.1 x.2
  elems : ∀ i (f : Field) s, f ∈ (env.strct i).fields → f.kind = .element s →
    ElemNsOk (urls (env.strct i).namespaces) f.name.expanded
  attrs : ∀ i (f : Field) o t, f ∈ (env.strct i).fields → f.kind = .attribute o t →
    f.name.expanded.ns = "" ∨ f.name.expanded.ns = xmlNs ∨ f.name.expanded.ns ∈ urls (env.strct i).namespaces
  variants : ∀ i (w : Variant), w ∈ (env.enm i).variants → w.skip = false → ElemNsOk (urls (env.enm i).namespaces) w.name.expanded

/-! ### Elements in no namespace -/

/-- Does an element of this type declare a default namespace (itself or for a flattened field)? -/
def asksDefault (env : Env) : Ty → Bool
  | .text _ => false
  | .strct i => (env.strct i).namespaces.any (fun x => x.1 == "") || (env.strct i).fields.any fun f =>
    match f.kind with
    | .flatten e => (env.enm e).namespaces.any fun x => x.1 == ""
    | _ => false
  | .enm i => (env.enm i).namespaces.any fun x => x.1 == ""

/-- No element in no namespace is an element, or inside one, that declares a default namespace.  `dflt`: an element
around these does. -/
inductive PlainFree (env : Env) : Bool → List Item → Prop where
  | nil {dflt : Bool} : PlainFree env dflt []
  | unit {dflt : Bool} {n : EName} {l : List Item} (h : n.ns = "" → dflt = false) (rest : PlainFree env dflt l) :
      PlainFree env dflt ({ name := n, value := none } :: l)
  | text {dflt : Bool} {n : EName} {t : TextTy} {v : Val} {l : List Item} (h : n.ns = "" → dflt = false) (rest : PlainFree env dflt l) :
      PlainFree env dflt ({ name := n, value := some (.text t, v) } :: l)
  | strct {dflt : Bool} {n : EName} {i : Nat} {vs : List Val} {l : List Item} (h : n.ns = "" → (dflt || asksDefault env (.strct i)) = false)
      (children : PlainFree env (dflt || asksDefault env (.strct i)) (structItems env (env.strct i).fields vs))
      (rest : PlainFree env dflt l) : PlainFree env dflt ({ name := n, value := some (.strct i, .strct vs) } :: l)
  | enm {dflt : Bool} {n : EName} {i : Nat} {v : Val} {l : List Item} (h : n.ns = "" → (dflt || asksDefault env (.enm i)) = false)
      (children : PlainFree env (dflt || asksDefault env (.enm i)) (variantItems (env.enm i) v))
      (rest : PlainFree env dflt l) : PlainFree env dflt ({ name := n, value := some (.enm i, v) } :: l)

/-- The same for a document. -/
def RootPlainFree (env : Env) (name : EName) (ty : Ty) (v : Val) : Prop := PlainFree env false [{ name, value := some (ty, v) }]

/-- All names of elements are in a namespace. -/
structure AllNamed (env : Env) : Prop where
  fields : ∀ i (f : Field) s, f ∈ (env.strct i).fields → f.kind = .element s → f.name.expanded.ns ≠ ""
  variants : ∀ i (w : Variant), w ∈ (env.enm i).variants → w.skip = false → w.name.expanded.ns ≠ ""

/-- A condition on types alone, under which no value has elements in no namespace within default namespaces: the types declare no
default namespaces, or use only elements in namespaces. -/
def NoClash (env : Env) (name : EName) : Prop :=
  (∀ ty, asksDefault env ty = false) ∨ (AllNamed env ∧ name.ns ≠ "")

end SX.Spec
