import Verif.Spec.OpenRead
import Verif.Spec.OpenSer
import Verif.Spec.RoundTrip

/-
When a type reads back what it wrote, from the same for the types of its fields.
-/
namespace SX.Spec.Open
open SX.Open

variable {σ τ α β : Type}

/-- `x`, as reported by the parser, was written with these attributes and this content. -/
def IsWritten (as : List (EName × String)) (g : EForest) (x : Elem) : Prop :=
  x.attrs.map (fun a => (a.name.expanded, a.value)) = as ∧ Denotes g x.children

/-- `T::deserialize` makes the value of any element with this name in which the value is written with success. -/
def ReadsAs (V : Visitor σ) (D : Deser σ β) (name : EName) (w : Ser) (v : β) : Prop :=
  ∃ as g, AttrProg.asks w.attrs [] = some as ∧ Prog.asks w.children [] = some (g.events, .ok ()) ∧
    ∀ path x, x.name.expanded = name → IsWritten as g x → Reads V D path x v

/-- Only elements with one name, one after another. -/
def Only (name : EName) : EForest → Prop
  | .nil => True
  | .elem n _ _ rest => n = name ∧ Only name rest
  | .chars _ _ => False

/-- The names of the elements (not those inside them) are others. -/
def Others (P : EName → Prop) : EForest → Prop
  | .nil => True
  | .elem n _ _ rest => ¬ P n ∧ Others P rest
  | .chars _ rest => Others P rest

/-- A field: how it is read, how it is written, and its value. -/
structure Row (σ τ α : Type) where
  field : OField σ τ α
  kind : SKind
  value : α

/-- An element field reads back what was written for it: only elements with the field's name, and what they are made into is the value;
or there are none, and the value is that of a missing field. -/
def ElementBack (V : Visitor σ) (f : OField σ τ α) (impl : FieldImpl σ α) (p : Prog [.writer false]) (v : α) : Prop :=
  ∃ g, Prog.asks p [] = some (g.events, .ok ()) ∧ Only f.name.expanded g ∧
    ∀ here F, Denotes g F → ∃ c, fill V here impl none F.children = some c ∧ (c = some v ∨ c = none ∧ absent f = .ok v)

/-- An attribute field reads back what was written for it: at most one attribute, with its name. -/
def AttributeBack (f : OField σ τ α) (impl : AttrImpl α) (w : AttrProg) (v : α) : Prop :=
  ∃ o : Option String, AttrProg.asks w [] = some (o.toList.map fun s => (f.name.expanded, s)) ∧
    match o with
    | some s => impl.init s = .ok v
    | none => absent f = .ok v

/-- A flattened field reads back what was written for it, which has no names of other fields (`P`: those of attributes, `Q`: of elements).
`e`: the element that it is in. -/
def FlattenedBack (V : Visitor σ) (P Q : EName → Prop) (raw : Raw σ τ α) (default : Option (Ret Empty α)) (w : Ser) (v : α) : Prop :=
  ∃ as g, AttrProg.asks w.attrs [] = some as ∧ Prog.asks w.children [] = some (g.events, .ok ()) ∧
    (∀ a ∈ as, ¬ P a.1) ∧ Others Q g ∧
    ∀ path e A F, A.map (fun a : XAttr => (a.name.expanded, a.value)) = as → Denotes g F →
      ∃ t t' t'', flatAttrs ([] : List (OField σ τ α)) A [(raw, raw.new)] = some [(raw, t)] ∧
        flatContent V (path ++ [e]) ([] : List (OField σ τ α)) F [(raw, t)] = some [(raw, t')] ∧
        raw.finalize t' default = .ok (t'', .ok ()) ∧ raw.out t'' = some v

/-- A field reads back what was written for it. -/
def FieldBack (V : Visitor σ) (fields : List (OField σ τ α)) (r : Row σ τ α) : Prop :=
  match r.field.kind, r.kind with
  | .element impl, .element w => ElementBack V r.field impl (w r.field.name.expanded) r.value
  | .attribute impl, .attribute w => AttributeBack r.field impl (w r.field.name.expanded) r.value
  | .flatten raw, .flatten w => FlattenedBack V (IsAttribute fields) (IsElement fields) raw r.field.default w r.value
  | _, _ => False

/-- The fields as they are read. -/
def fieldsOf (rows : List (Row σ τ α)) : List (OField σ τ α) := rows.map Row.field

/-- The fields as they are written. -/
def writtenOf (rows : List (Row σ τ α)) : List SField := rows.map fun r => ⟨r.field.name, r.kind⟩

/-- There is at most one flattened field. -/
def OneFlatten (fields : List (OField σ τ α)) : Prop :=
  ∀ (p q : Nat) (f g : OField σ τ α) raw raw', fields[p]? = some f → fields[q]? = some g → f.kind = .flatten raw → g.kind = .flatten raw' → p = q

/-- A variant reads back what was written for it: at least one element. -/
def VariantBack (V : Visitor σ) (var : OVariant σ α) (s : SVariant) (p : Option α) : Prop :=
  match var.payload, s, p with
  | none, .unit n, none => n.expanded = var.name.expanded
  | some impl, .payload n w, some v => n.expanded = var.name.expanded ∧ ∃ g, Prog.asks (w n.expanded) [] = some (g.events, .ok ()) ∧
      Only var.name.expanded g ∧ ∀ here F, Denotes g F → fill V here impl none F.children = some (some v)
  | _, _, _ => False

end SX.Spec.Open
