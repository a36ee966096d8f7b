import Verif.Model.OpenRead
import Verif.Spec.DeriveForms
import Verif.Spec.Open
import Verif.Spec.Macro

/-
What a derived type with fields of arbitrary types holds after reading an element: each field what its type's implementation makes of the children
(or the attribute) with its name.
-/
namespace SX.Spec.Open
open SX.Open

variable {σ τ α ρ : Type}

/-- An implementation is given an element and does with it what it wants. -/
def perform (V : Visitor σ) (path : List StackElem) (x : Elem) : Action σ ρ → Except Fault (ρ × Stop)
  | .done r => .ok (r, { path := path ++ [{ name := x.name, pos := x.pos }], pos := x.pos })
  | .readString k =>
    let r := asText (path ++ [{ name := x.name, pos := x.pos }]) x.children x.endPos
    .ok (k r.1, r.2)
  | .readTo sub k =>
    let here := path ++ [{ name := x.name, pos := x.pos }]
    match attributes V here x.pos x.attrs sub with
    | .error f => .error f
    | .ok (sub, .error e) => .ok (k sub (.error (.propagate e)), { path := here, pos := x.pos })
    | .ok (sub, .ok ()) =>
      match content V here x.children sub with
      | .error f => .error f
      | .ok (sub, .error (e, stop)) => .ok (k sub (.error (.propagate e)), stop)
      | .ok (sub, .ok ()) => .ok (k sub (.ok (x.name, x.ns, x.endPos)), { path := here, pos := x.endPos })

/-- What it can see of the element before it reads it. -/
def infoOf (path : List StackElem) (x : Elem) : ElemInfo := { name := x.name, ns := x.ns, depth := path.length + 1 }

/-- What an implementation makes of an element, if it does not fail. -/
def makes (V : Visitor σ) (path : List StackElem) (x : Elem) (a : Action σ (Ret VErr α)) : Option α :=
  match perform V path x a with
  | .ok (.ok v, _) => some v
  | _ => none

/-- The same for a value changed in place. -/
def changes (V : Visitor σ) (path : List StackElem) (x : Elem) (a : Action σ (α × Ret VErr Unit)) : Option α :=
  match perform V path x a with
  | .ok ((v, .ok ()), _) => some v
  | _ => none

/-- An element field, after children for it: the first one is given to `init`, the others to `update`, in document order.  `none`: one of them
failed. -/
def fill (V : Visitor σ) (path : List StackElem) (impl : FieldImpl σ α) : Option α → List Elem → Option (Option α)
  | c, [] => some c
  | none, x :: l =>
    match makes V path x (impl.init (infoOf path x)) with
    | some v => fill V path impl (some v) l
    | none => none
  | some v, x :: l =>
    match changes V path x (impl.update v (infoOf path x)) with
    | some w => fill V path impl (some w) l
    | none => none

/-- An attribute field, after attributes for it: there may be at most one. -/
def fillAttr (impl : AttrImpl α) : List XAttr → Option (Option α)
  | [] => some none
  | [a] =>
    match impl.init a.value with
    | .ok v => some (some v)
    | _ => none
  | _ => none

/-- What a field that is not flattened gets from an element (whose path from the root is `here`): what was read for it, and if nothing was there, its
default or what `missing` says. -/
def Gets (V : Visitor σ) (here : List StackElem) (x : Elem) (f : OField σ τ α) (v : α) : Prop :=
  ∃ c, (match f.kind with
    | .element impl => fill V here impl none (x.children.childrenNamed f.name.expanded) = some c
    | .attribute impl => fillAttr impl (x.attrs.filter fun a => a.name.expanded == f.name.expanded) = some c
    | .flatten _ => False) ∧
    (c = some v ∨ c = none ∧ absent f = .ok v)

/-- A child is offered to visitors in turn, until one keeps it. -/
def offerElem (V : Visitor σ) (path : List StackElem) (x : Elem) : List (Raw σ τ α × τ) → Option (List (Raw σ τ α × τ))
  | [] => some []
  | (raw, t) :: l =>
    match raw.element t (infoOf path x) with
    | .ok (.back t) => (offerElem V path x l).map fun l => (raw, t) :: l
    | .ok (.take a) =>
      match perform V path x a with
      | .ok (.ok (t, .ok ()), _) => some ((raw, t) :: l)
      | _ => none
    | .error _ => none

/-- An attribute is offered to visitors in turn, until one keeps it. -/
def offerAttr (n : EName) : String → List (Raw σ τ α × τ) → Option (List (Raw σ τ α × τ))
  | _, [] => some []
  | v, (raw, t) :: l =>
    match raw.attr t n v with
    | .ok (t, .ok (some v)) => (offerAttr n v l).map fun l => (raw, t) :: l
    | .ok (t, .ok none) => some ((raw, t) :: l)
    | _ => none

/-- Text is offered to visitors in turn, until one keeps it. -/
def offerChars (pos : Pos) : String → List (Raw σ τ α × τ) → Option (List (Raw σ τ α × τ))
  | _, [] => some []
  | s, (raw, t) :: l =>
    match raw.characters t s pos with
    | .ok (t, .ok (some s)) => (offerChars pos s l).map fun l => (raw, t) :: l
    | .ok (t, .ok none) => some ((raw, t) :: l)
    | _ => none

/-- Is there an element field with this name? -/
def IsElement (fields : List (OField σ τ α)) (n : EName) : Prop := ∃ f ∈ fields, (∃ impl, f.kind = .element impl) ∧ f.name.expanded = n

/-- Is there an attribute field with this name? -/
def IsAttribute (fields : List (OField σ τ α)) (n : EName) : Prop := ∃ f ∈ fields, (∃ impl, f.kind = .attribute impl) ∧ f.name.expanded = n

open Classical in
/-- The flattened fields are offered the attributes that are not declared. -/
noncomputable def flatAttrs (fields : List (OField σ τ α)) : List XAttr → List (Raw σ τ α × τ) → Option (List (Raw σ τ α × τ))
  | [], l => some l
  | a :: as, l =>
    if IsAttribute fields a.name.expanded then flatAttrs fields as l
    else
      match offerAttr a.name.expanded a.value l with
      | none => none
      | some l => flatAttrs fields as l

open Classical in
/-- The flattened fields are offered all text and the children that are not declared. -/
noncomputable def flatContent (V : Visitor σ) (here : List StackElem) (fields : List (OField σ τ α)) :
    Forest → List (Raw σ τ α × τ) → Option (List (Raw σ τ α × τ))
  | .nil, l => some l
  | .misc _ _ rest, l => flatContent V here fields rest l
  | .chars s _ pos rest, l =>
    match offerChars pos s l with
    | none => none
    | some l => flatContent V here fields rest l
  | .elem name attrs ns pos children endPos rest, l =>
    if IsElement fields name.expanded then flatContent V here fields rest l
    else
      match offerElem V here { name, attrs, ns, pos, children, endPos } l with
      | none => none
      | some l => flatContent V here fields rest l

/-- The flattened fields with new visitors. -/
def newFlats : List (OField σ τ α) → List (Raw σ τ α × τ)
  | [] => []
  | f :: fs =>
    match f.kind with
    | .flatten raw => (raw, raw.new) :: newFlats fs
    | _ => newFlats fs

/-- The values of all fields: `flats` are the flattened ones, after all has been offered to them. -/
inductive AllGet (V : Visitor σ) (here : List StackElem) (x : Elem) : List (OField σ τ α) → List (Raw σ τ α × τ) → List α → Prop where
  | nil : AllGet V here x [] [] []
  | plain {f : OField σ τ α} {fs : List (OField σ τ α)} {flats : List (Raw σ τ α × τ)} {v : α} {vs : List α} (hv : Gets V here x f v)
      (h : AllGet V here x fs flats vs) : AllGet V here x (f :: fs) flats (v :: vs)
  | flat {f : OField σ τ α} {fs : List (OField σ τ α)} {raw : Raw σ τ α} {t t' : τ} {flats : List (Raw σ τ α × τ)} {v : α} {vs : List α}
      (hk : f.kind = .flatten raw) (hf : raw.finalize t f.default = .ok (t', .ok ())) (hv : raw.out t' = some v) (h : AllGet V here x fs flats vs) :
      AllGet V here x (f :: fs) ((raw, t) :: flats) (v :: vs)

/-- A struct with the given fields is read from an element. -/
def StructRead (V : Visitor σ) (path : List StackElem) (fields : List (OField σ τ α)) (x : Elem) (vs : List α) : Prop :=
  ∃ l l', flatAttrs fields x.attrs (newFlats fields) = some l ∧
    flatContent V (path ++ [{ name := x.name, pos := x.pos }]) fields x.children l = some l' ∧
    AllGet V (path ++ [{ name := x.name, pos := x.pos }]) x fields l' vs

/-- An enum with the given variants is read from an element: there are children of exactly one variant, and the payload is what its type makes of them. -/
def EnumRead (V : Visitor σ) (path : List StackElem) (vs : List (OVariant σ α)) (x : Elem) (r : Nat × Option α) : Prop :=
  ∃ var, vs[r.1]? = some var ∧ x.children.childrenNamed var.name.expanded ≠ [] ∧
    (∀ w ∈ vs, x.children.childrenNamed w.name.expanded ≠ [] → w.name.expanded = var.name.expanded) ∧
    match var.payload with
    | none => r.2 = none
    | some impl => ∃ p, r.2 = some p ∧
        fill V (path ++ [{ name := x.name, pos := x.pos }]) impl none (x.children.childrenNamed var.name.expanded) = some (some p)

/-- `T::deserialize` makes this value of an element. -/
def Reads {β : Type} (V : Visitor σ) (D : Deser σ β) (path : List StackElem) (x : Elem) (v : β) : Prop :=
  ∃ stop, deser V D path x = .ok (.ok v, stop)

/-- An implementation for a field that, when reading a child fails, fails itself. -/
structure Strict (impl : FieldImpl σ α) : Prop where
  init : ∀ info, Action.NoSwallow (fun r => ∀ v, r ≠ .ok v) (impl.init info)
  update : ∀ v info, Action.NoSwallow (fun r => r.2 ≠ .ok ()) (impl.update v info)

/-- The same for a visitor. -/
def RawStrict (raw : Raw σ τ α) : Prop :=
  ∀ t info a, raw.element t info = .ok (.take a) → Action.NoSwallow (fun r => ∀ t, r ≠ .ok (t, .ok ())) a

end SX.Spec.Open
