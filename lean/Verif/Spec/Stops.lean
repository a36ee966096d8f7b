import Verif.Spec.Writer

/-
Serialization that stops at the first error.
-/
namespace SX.Spec

/-- What was done up to the first error `e`, and after it: handles were dropped, nothing else was tried.  The first error is that of a
write, or a duplicate attribute, for which the element is abandoned. -/
def StoppedBy (e : SErr) (steps : List Step) : Prop :=
  ∃ pre x post, steps = pre ++ x :: post ∧ (∀ y ∈ pre, stepError y = none) ∧ (∀ y ∈ post, ∃ e', y = .abandoned e') ∧
    ((∃ ev, x = .failed ev e) ∨ (x = .abandoned .builderDropped ∧ ∃ n a b, e = .duplicateAttribute n a b))

end SX.Spec
