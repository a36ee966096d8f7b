import Verif.Spec.LocalErr

/-
The smallest part of a document with which an error can be reproduced (C105).
-/
namespace SX.Spec

/-- An error of reading an element on its own that is about nothing below it: it names the element only; or, besides, one child that is one too many, for another variant
than the first, or in a text. -/
def AboutRoot (E : Error) : Prop :=
  ∃ x : StackElem, E.stack = [x] ∨ ∃ k : StackElem, E.stack = [x, k] ∧
    (E.kind = .deserializer (.duplicateElement k.name.expanded) ∨ (∃ n, E.kind = .deserializer (.unexpectedElement k.name.expanded n)) ∨ E.kind = .msg (.elementInString k.name))

end SX.Spec
