import Verif.Spec.Tree

/-
The events before the root (C109).
-/
namespace SX.Spec

/-- The events up to the root's start tag. -/
def upToRoot (d : Doc) : List (XEvent × Pos) := (.startDocument, d.startPos) :: miscEvents d.prolog

end SX.Spec
