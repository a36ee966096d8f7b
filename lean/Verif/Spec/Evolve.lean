import Verif.Spec.OpenRead

/-
Types that change from one version of a program to the next.  `V` and `D` are the visitors and the type of the old program, `V'` and `D'` those of
the new one.
-/
namespace SX.Spec.Open
open SX.Open

variable {σ σ' τ τ' α α' β β' : Type}

/-- All that the old type reads from elements satisfying `ok`, the new type reads too, and makes a corresponding value of it. -/
def Upgrades (V : Visitor σ) (D : Deser σ β) (V' : Visitor σ') (D' : Deser σ' β') (ok : Elem → Prop) (R : β → β' → Prop) : Prop :=
  ∀ path x v, ok x → Reads V D path x v → ∃ v', Reads V' D' path x v' ∧ R v v'

/-- The same for a field: whenever the old one gets a value, the new one gets a corresponding value. -/
def FieldUpgrades (V : Visitor σ) (f : OField σ τ α) (V' : Visitor σ') (f' : OField σ' τ' α') (ok : Elem → Prop) (R : α → α' → Prop) : Prop :=
  ∀ here x v, ok x → Gets V here x f v → ∃ v', Gets V' here x f' v' ∧ R v v'

/-- No field is flattened. -/
def NoFlatten (fields : List (OField σ τ α)) : Prop := ∀ f ∈ fields, ∀ raw, f.kind ≠ .flatten raw

/-- There is neither a child nor an attribute for the field. -/
def NotThere (f : OField σ τ α) (x : Elem) : Prop :=
  match f.kind with
  | .element _ => x.children.childrenNamed f.name.expanded = []
  | .attribute _ => ∀ a ∈ x.attrs, a.name.expanded ≠ f.name.expanded
  | .flatten _ => False

/-- How many values there can be. -/
inductive Multi where
  /-- `T` -/
  | one
  /-- `Option<T>` -/
  | opt
  /-- `Vec<T>` -/
  | vec

/-- The type of a field. -/
def Multi.Ty (β : Type) : Multi → Type
  | .one => β
  | .opt => Option β
  | .vec => List β

/-- The values in the value of a field. -/
def Multi.values : (c : Multi) → c.Ty β → List β
  | .one, v => [v]
  | .opt, v => v.toList
  | .vec, v => v

/-- The implementation for fields of the type. -/
def Multi.impl (D : Deser σ β) : (c : Multi) → FieldImpl σ (c.Ty β)
  | .one => deOne D
  | .opt => deOpt D
  | .vec => deVec D

/-- A change of `T` and `Option<T>` into each other or into `Vec<T>`. -/
def Multi.Wider : Multi → Multi → Prop
  | .vec, .vec => True
  | .vec, _ => False
  | _, _ => True

/-- The number of elements within. -/
def elementsIn : Forest → Nat
  | .nil => 0
  | .elem _ _ _ _ ch _ rest => elementsIn ch + elementsIn rest + 1
  | .chars _ _ _ rest => elementsIn rest
  | .misc _ _ rest => elementsIn rest

/-- The values correspond: for each new field `j` that was the field `src j`, they are related. -/
def Corresponds (src : Nat → Option Nat) (R : Nat → α → α' → Prop) (vs : List α) (vs' : List α') : Prop :=
  ∀ i j, src j = some i → ∀ v', vs'[j]? = some v' → ∃ v, vs[i]? = some v ∧ R j v v'

end SX.Spec.Open
