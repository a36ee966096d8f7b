import Verif.Spec.LocalRead

/-
Errors in one element of a document (C103).
-/
namespace SX.Spec

/-- The content of an element with one element left open, as `Around`, with the elements that are around it inside that content, outermost first. -/
inductive Within : List StackElem → (Elem → Forest) → Prop where
  | here (rest : Forest) : Within [] fun x => .elem x.name x.attrs x.ns x.pos x.children x.endPos rest
  /-- It is inside the first element. -/
  | inside (name : QName) (attrs : List XAttr) (ns : NsMap) (pos : Pos) (endPos : Pos) (rest : Forest) {path : List StackElem} {c : Elem → Forest} (h : Within path c) :
      Within (⟨name, pos⟩ :: path) fun x => .elem name attrs ns pos (c x) endPos rest
  /-- It comes after an element. -/
  | elem (name : QName) (attrs : List XAttr) (ns : NsMap) (pos : Pos) (children : Forest) (endPos : Pos) {path : List StackElem} {c : Elem → Forest} (h : Within path c) :
      Within path fun x => .elem name attrs ns pos children endPos (c x)
  | chars (s : String) (cdata : Bool) (pos : Pos) {path : List StackElem} {c : Elem → Forest} (h : Within path c) : Within path fun x => .chars s cdata pos (c x)
  | misc (m : Misc) (pos : Pos) {path : List StackElem} {c : Elem → Forest} (h : Within path c) : Within path fun x => .misc m pos (c x)

/-- An element has this name and position. -/
def Elem.At (nd : StackElem) (x : Elem) : Prop := x.name = nd.name ∧ x.pos = nd.pos

/-- The error `E'` of reading an element on its own as it is reported when the element is inside others (`above`, outermost first): the same in all, with those elements before the ones
of `E'`, and at the start of the innermost element concerned. -/
def Error.below (above : List StackElem) (E' : Error) : Error :=
  { kind := E'.kind, stack := above ++ E'.stack, pos := (E'.stack.getLast?.map (·.pos)).getD E'.pos }

end SX.Spec
