/-
Outcomes shared by the whole model.
-/
namespace SX

/-- Ways in which a Rust function can fail to return normally.  `panic`: a Rust panic (failed
bounds check, `unreachable!`, `todo!`, failed `debug_assert!`, arithmetic underflow in a debug
build); `ub`: undefined behaviour (an `unsafe` contract broken); `diverge`: an endless loop; `fuel`: the recursion bound given
to a model function was too small (not an outcome of the code; shown impossible wherever a fuel
argument is used).  E.g. `unwrap` (`common.rs:22,30`), indexing (`deserialize.rs:106,122,424`), `assert!` and `debug_assert!` (`de/mod.rs:469-481`, `ser/mod.rs:121-128`), `unsafe` (`deserialize.rs:112,207`). -/
inductive Fault where
  | panic
  | ub
  | diverge
  | fuel
  deriving DecidableEq, Repr

/-- Result of a Rust function returning `Result<α, ε>`, or a fault.  E.g. `ParseText::parse` (`de/mod.rs:769-774`). -/
inductive Res (ε α : Type) where
  | ok (a : α)
  | err (e : ε)
  | fault (f : Fault)
  deriving Repr

/-- `?` on a `Result` (a fault stops everything).  E.g. `deserialize.rs:182,216`. -/
def Res.bind {ε α β : Type} : Res ε α → (α → Res ε β) → Res ε β
  | .ok a, f => f a
  | .err e, _ => .err e
  | .fault x, _ => .fault x

/-- `?`, as `Res.bind` (e.g. `deserialize.rs:182,216`). -/
instance {ε : Type} : Monad (Res ε) where
  pure := .ok
  bind := Res.bind

/-- A computation that can only fault, seen as a `Result`.  Not in the code: for functions such as `normalize` (`de/mod.rs:838-893`), which return no `Result`. -/
def Res.ofExcept {ε α : Type} : Except Fault α → Res ε α
  | .ok a => .ok a
  | .error f => .fault f

end SX
