import Verif.Model.OpenWrap
import Verif.Spec.OpenRead

/-
What a field with a collector holds, given the values that were read for it.
-/
namespace SX.Spec.Open
open SX.Open

variable {β γ : Type}

/-- The values are given to the collector one after another; `none`: it does not take one of them. -/
def gather (C : Collector β γ) (n : EName) : Option γ → List β → Option (Option γ)
  | c, [] => some c
  | none, v :: l =>
    match C.first n v with
    | .ok c => gather C n (some c) l
    | _ => none
  | some c, v :: l =>
    match C.refuse c n, C.more c n v with
    | none, (c, .ok ()) => gather C n (some c) l
    | _, _ => none

/-- Something that is true of all that a collector makes, also of what it leaves when it does not take a value. -/
structure Keeps (C : Collector β γ) (P : γ → Prop) : Prop where
  first : ∀ n v c, C.first n v = .ok c → P c
  more : ∀ c n v, P c → P (C.more c n v).1

end SX.Spec.Open
