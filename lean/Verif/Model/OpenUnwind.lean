import Verif.Model.OpenRead
import Verif.Model.UnwindDe

/-
Programs of visitors as in `Model/Open.lean` in the reader of `Model/UnwindDe.lean`: implementations may panic, and may catch panics of the reads they
started and go on.  Where memory that is not initialized would be read, or something else undefined happen, anything at all is assumed to happen (`Junk`).

An `Action` over `σ × Bool` is one that is told of panics: the flag says that the read panicked.
-/
namespace SX.OpenUnwind
open SX.Open SX.UnwindDe

variable {σ ρ κ : Type} {τ α : κ → Type}

/-- What is told to an implementation whose read panicked, besides the flag.  Not in the code: `de/mod.rs:546-602` unwinds. -/
def noError : VErr := .wrap (.user "")

/-- An action that is told of panics (`de/mod.rs:546-655` within `catch_unwind`), as `Model/UnwindDe.lean` has them. -/
def unflag : Action (σ × Bool) ρ → PAction σ ρ
  | .done r => .done r
  | .readString k => .readString k
  | .readTo s k => .readTo s.1 fun sub r =>
    match r with
    | .ok x => k (sub, false) (.ok x)
    | .err e => k (sub, false) (.error e)
    | .panic => k (sub, true) (.error noError)

/-- The converse (`de/mod.rs:546-655`). -/
def flag : PAction σ ρ → Action (σ × Bool) ρ
  | .done r => .done r
  | .readString k => .readString k
  | .readTo sub k => .readTo (sub, false) fun s r =>
    k s.1 (if s.2 then .panic else match r with
      | .ok x => .ok x
      | .error e => .err e)

/-- The states of all visitors of a program; `κ`: their types (`de/mod.rs:710-730`). -/
abbrev States (τ : κ → Type) : Type := (k : κ) × τ k

/-- What happens where something undefined happens: anything.  Stands for `assume_init` and the like in `de/mod.rs:741-757` and in emitted code (`deserialize.rs:226-470`). -/
structure Junk (τ α : κ → Type) where
  attr : States τ × Ret VErr Unit
  chars : States τ × Ret DErr Unit
  elem : States τ × Ret VErr Unit
  value : (k : κ) → Ret VErr (α k)

/-- The methods of a type that `impl_deserialize_via_raw!` calls itself (`de/mod.rs:741-757`). -/
structure Ends (τ α : Type) where
  new : τ
  finalize : τ → Option (Ret Empty α) → Except Fault (τ × Ret VErr Unit)
  out : τ → Option α

/-- Those of a visitor type.  `de/mod.rs:710-720`. -/
def ends {τ α : Type} (raw : Raw σ τ α) : Ends τ α := { new := raw.new, finalize := raw.finalize, out := raw.out }

/-- The answer to an attribute or to text, as `read_to` sees it (`de/mod.rs:559-576`). -/
def answered {ε : Type} (junk : States τ × Ret ε Unit) (k : κ) : Except Fault (τ k × Ret ε (Option String)) → States τ × Ret ε Unit
  | .error _ => junk
  | .ok (t, .ok _) => (⟨k, t⟩, .ok ())
  | .ok (t, .err e) => (⟨k, t⟩, .err e)
  | .ok (t, .panic) => (⟨k, t⟩, .panic)

/-- The same when a child was read (`de/mod.rs:578-598`). -/
def wasRead (junk : States τ × Ret VErr Unit) (k : κ) : Except Fault (τ k × Ret VErr Unit) → States τ × Ret VErr Unit
  | .error _ => junk
  | .ok (t, r) => (⟨k, t⟩, r)

/-- The same for a child (`de/mod.rs:578-598`). -/
def offered (junk : States τ × Ret VErr Unit) (k : κ) : Except Fault (Offer (States τ × Bool) (τ k)) → PAction (States τ) (States τ × Ret VErr Unit)
  | .error _ => .done junk
  | .ok (.back t) => .done (⟨k, t⟩, .ok ())
  | .ok (.take a) => unflag (a.map (wasRead junk k))

/-- All visitors of a program (`de/mod.rs:777-820`). -/
def visitor (raw : (k : κ) → Raw (States τ × Bool) (τ k) (α k)) (junk : Junk τ α) : PVisitor (States τ) where
  onAttr s n v := answered junk.attr s.1 ((raw s.1).attr s.2 n v)
  onChars s v pos := answered junk.chars s.1 ((raw s.1).characters s.2 v pos)
  onElem s info := offered junk.elem s.1 ((raw s.1).element s.2 info)

/-- `finalize(visitor, None)?` and `assume_init` (`de/mod.rs:751-753`). -/
def conclude {τ α : Type} (e : Ends τ α) (junk : Ret VErr α) (t : τ) : Ret VErr α :=
  match e.finalize t none with
  | .error _ => junk
  | .ok (t, .ok ()) =>
    match e.out t with
    | some v => .ok v
    | none => junk
  | .ok (_, .err e) => .err e
  | .ok (_, .panic) => .panic

/-- `impl_deserialize_via_raw!` (`de/mod.rs:741-757`) for the type `k` of a program.  (In Rust types say that the visitor is still one of its type; here it is
anything, if it is not.) -/
def via [DecidableEq κ] (e : (k : κ) → Ends (τ k) (α k)) (junk : (k : κ) → Ret VErr (α k)) (k : κ) : PDeser (States τ) (α k) := fun _ =>
  .readTo ⟨k, (e k).new⟩ fun sub r =>
    match r with
    | .err e => .err e
    | .panic => .panic
    | .ok _ => if h : sub.1 = k then conclude (e k) (junk k) (h ▸ sub.2) else junk k

/-- `DeserializeElementField` for any `T: Deserialize` (`de/mod.rs:958-970`). -/
def one {β : Type} (D : PDeser σ β) : FieldImpl (σ × Bool) β where
  init info := flag (D info)
  update v info := .done (v, .err (.wrap (.duplicateElement info.name.expanded)))
  missing n := .err (.wrap (.missingElement n))

/-- `DeserializeElementField` for `Option<T>` (`de/mod.rs:972-984`). -/
def opt {β : Type} (D : PDeser σ β) : FieldImpl (σ × Bool) (Option β) where
  init info := (flag (D info)).map fun r =>
    match r with
    | .ok v => .ok (some v)
    | .err e => .err e
    | .panic => .panic
  update v info := .done (v, .err (.wrap (.duplicateElement info.name.expanded)))
  missing _ := .ok none

/-- `DeserializeElementField` for `Vec<T>` (`de/mod.rs:986-1000`). -/
def vec {β : Type} (D : PDeser σ β) : FieldImpl (σ × Bool) (List β) where
  init info := (flag (D info)).map fun r =>
    match r with
    | .ok v => .ok [v]
    | .err e => .err e
    | .panic => .panic
  update l info := (flag (D info)).map fun r =>
    match r with
    | .ok v => (l ++ [v], .ok ())
    | .err e => (l, .err e)
    | .panic => (l, .panic)
  missing _ := .ok []

end SX.OpenUnwind
