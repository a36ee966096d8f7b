import Verif.Spec.Onward
import Verif.Spec.Derive

/-
Mending a document one element at a time (C110).
-/
namespace SX.Spec

/-- The end tags among events: as many as elements, in a document. -/
def endTags : List (XEvent × Pos) → Nat
  | [] => 0
  | (.endElement _, _) :: l => endTags l + 1
  | _ :: l => endTags l

/-- The document cannot be read (by `rd`) as the type, since the element in this place cannot be read as the type `ty'` (the error is that of the element alone, about nothing below it). -/
structure Faulty (rd : Ty → Input → Except Fault (Except Error Val)) (ty : Ty) (d : Doc) (path : List StackElem) (c : Elem → Forest) (x : Elem) (ty' : Ty) (E' : Error) : Prop where
  within : Within path c
  here : d = d.with c x
  alone : rd ty' ({ d with root := x } : Doc).input = .ok (.error E')
  about : AboutRoot E'
  error : rd ty d.input = .ok (.error (Error.below (⟨d.root.name, d.root.pos⟩ :: path) E'))

/-- A faulty element is replaced by what `R` has for it and the type, if that can be read as the type; and so on, so many times. -/
inductive Mends (rd : Ty → Input → Except Fault (Except Error Val)) (ty : Ty) (R : Elem → Ty → Elem) : Nat → Doc → Doc → Prop where
  | done (d : Doc) : Mends rd ty R 0 d d
  | step {n : Nat} {d d' : Doc} {path : List StackElem} {c : Elem → Forest} {x : Elem} {ty' : Ty} {E' : Error} (h : Faulty rd ty d path c x ty' E')
      (readable : ∃ w, rd ty' ({ d with root := R x ty' } : Doc).input = .ok (.ok w)) (next : Mends rd ty R n (d.with c (R x ty')) d') : Mends rd ty R (n + 1) d d'

end SX.Spec
