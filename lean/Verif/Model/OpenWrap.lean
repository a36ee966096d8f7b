import Verif.Model.OpenUnwind

/-
Implementations written by hand on top of those of another type: a type that has another one read the element and then makes its own value of that one's (a newtype,
a type with a check), and the type of a field that collects the values of another type (a set, a map, the last value only).  These are not in the crate; they are what
its traits are for, so each is a parameter of the definitions here.
-/
namespace SX.Open

variable {σ β γ : Type}

/-- What `make` returns, as the end of `deserialize` (`de/mod.rs:667-669`). -/
def conclude : Ret VErr γ → Except Fault (Except VErr γ)
  | .ok v => .ok (.ok v)
  | .err e => .ok (.error e)
  | .panic => .error .panic

/-- `Deserialize` (`de/mod.rs:667-669`) written by hand: `make(T::deserialize(element)?)`. -/
def wrap (make : β → Ret VErr γ) (D : Deser σ β) : Deser σ γ := fun info =>
  (D info).map fun r =>
    match r with
    | .error f => .error f
    | .ok (.error e) => .ok (.error e)
    | .ok (.ok v) => conclude (make v)

/-- How a field of type `γ` collects values of type `β`: what it makes of the first one; whether it refuses another one without reading it, or adds it; and what it
is if there is none.  The parts of an implementation of `DeserializeElementField` (`de/mod.rs:685-696`) that are not `T::deserialize(element)?`. -/
structure Collector (β γ : Type) where
  first : EName → β → Ret VErr γ
  refuse : γ → EName → Option VErr
  more : γ → EName → β → γ × Ret VErr Unit
  none : EName → Ret VErr γ

/-- `DeserializeElementField` (`de/mod.rs:685-696`) written by hand with a collector. -/
def deCollect (C : Collector β γ) (D : Deser σ β) : FieldImpl σ γ where
  init info := (D info).map fun r =>
    match deserRet r with
    | .ok v => C.first info.name.expanded v
    | .err e => .err e
    | .panic => .panic
  update c info :=
    match C.refuse c info.name.expanded with
    | some e => .done (c, .err e)
    | .none => (D info).map fun r =>
      match deserRet r with
      | .ok v => C.more c info.name.expanded v
      | .err e => (c, .err e)
      | .panic => (c, .panic)
  missing n := C.none n

/-- The parts of the implementation for `T` (`de/mod.rs:958-970`). -/
def justOne : Collector β β where
  first _ v := .ok v
  refuse _ n := some (.wrap (.duplicateElement n))
  more c n _ := (c, .err (.wrap (.duplicateElement n)))
  none n := .err (.wrap (.missingElement n))

/-- The parts of the implementation for `Option<T>` (`de/mod.rs:972-984`). -/
def atMostOne : Collector β (Option β) where
  first _ v := .ok (some v)
  refuse _ n := some (.wrap (.duplicateElement n))
  more c n _ := (c, .err (.wrap (.duplicateElement n)))
  none _ := .ok .none

/-- The parts of the implementation for `Vec<T>` (`de/mod.rs:986-1000`). -/
def inOrder : Collector β (List β) where
  first _ v := .ok [v]
  refuse _ _ := .none
  more c _ v := (c ++ [v], .ok ())
  none _ := .ok []

end SX.Open

namespace SX.OpenUnwind
open SX.Open SX.UnwindDe

variable {σ β γ : Type}

/-- `wrap` where panics are told apart; `make` may panic, and panics go on.  As `SX.Open.wrap`, for `Deserialize` (`de/mod.rs:667-669`). -/
def wrap (make : β → Ret VErr γ) (D : PDeser σ β) : PDeser σ γ := fun info =>
  match D info with
  | .done r => .done (after r)
  | .readString k => .readString fun x => after (k x)
  | .readTo sub k => .readTo sub fun s r => after (k s r)
where
  /-- `make(r?)`. -/
  after : Ret VErr β → Ret VErr γ
    | .ok v => make v
    | .err e => .err e
    | .panic => .panic

/-- `deCollect` where panics are told apart.  As `SX.Open.deCollect`, for `DeserializeElementField` (`de/mod.rs:685-696`). -/
def collect (C : Collector β γ) (D : PDeser σ β) : FieldImpl (σ × Bool) γ where
  init info := (flag (D info)).map fun r =>
    match r with
    | .ok v => C.first info.name.expanded v
    | .err e => .err e
    | .panic => .panic
  update c info :=
    match C.refuse c info.name.expanded with
    | some e => .done (c, .err e)
    | .none => (flag (D info)).map fun r =>
      match r with
      | .ok v => C.more c info.name.expanded v
      | .err e => (c, .err e)
      | .panic => (c, .panic)
  missing n := C.none n

end SX.OpenUnwind
