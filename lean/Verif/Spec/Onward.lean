import Verif.Spec.Reproduce
import Verif.Spec.Prefix

/-
How far a document is accepted once the element that an error was about has been replaced (C108).
-/
namespace SX.Spec

/-- The events of an element: its start tag, its content, its end tag. -/
def elemEvents (x : Elem) : List (XEvent × Pos) := (.startElement x.name x.attrs x.ns, x.pos) :: (x.children.events ++ [(.endElement x.name, x.endPos)])

end SX.Spec
