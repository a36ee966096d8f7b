import Verif.Spec.OpenWrap
import Verif.Spec.Failures
import Verif.Spec.PanicAs

/-
Collectors that differ in how they fail.
-/
namespace SX.Spec.Open
open SX.Open

variable {β γ : Type}

/-- Both take the same values, or both fail (compare `Failures.Like`). -/
structure LikeCollectors (C C' : Collector β γ) : Prop where
  first : ∀ n v, Failures.Like (C.first n v) (C'.first n v)
  refuse : ∀ c n, (C.refuse c n).isSome = (C'.refuse c n).isSome
  more : ∀ c n v, Failures.LikeMut (C.more c n v) (C'.more c n v)
  none : ∀ n, Failures.Like (C.none n) (C'.none n)

/-- The second one returns the error where the first one panics (compare `PanicAs.Sim`). -/
structure SimCollectors [PanicAs.Mark] (C C' : Collector β γ) : Prop where
  first : ∀ n v, PanicAs.Sim (C.first n v) (C'.first n v)
  refuse : ∀ c n, C.refuse c n = C'.refuse c n ∧ ∀ e, C.refuse c n = some e → ¬ PanicAs.stands e
  more : ∀ c n v, PanicAs.SimMut (C.more c n v) (C'.more c n v)
  none : ∀ n, PanicAs.Sim (C.none n) (C'.none n)

end SX.Spec.Open
