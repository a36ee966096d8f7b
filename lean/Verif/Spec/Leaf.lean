import Verif.Spec.LocalRead

/-
Where the texts in a value come from (C111).
-/
namespace SX.Spec

/-- The element with one element left open: itself, or one inside it at any depth. -/
inductive Opened (x : Elem) : (Elem → Elem) → Prop where
  | root : Opened x fun z => z
  | inside {c : Elem → Forest} (h : Around c) : Opened x fun z => { x with children := c z }

/-- The names of the child elements. -/
def Forest.names : Forest → List EName
  | .nil => []
  | .elem n _ _ _ _ _ rest => n.expanded :: rest.names
  | .chars _ _ _ rest => rest.names
  | .misc _ _ rest => rest.names

/-- There is nothing in the element for this field. -/
def NothingFor (f : Field) (x : Elem) : Prop :=
  match f.kind with
  | .element _ => f.name.expanded ∉ x.children.names
  | .attribute _ _ => ∀ a ∈ x.attrs, a.name.expanded ≠ f.name.expanded
  | _ => False

end SX.Spec
