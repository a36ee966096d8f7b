import Verif.Proof.Stack
import Verif.Proof.StackWhole
import Verif.Props.Whole

/-
C66: the calls that reading nests are bounded by the types, not by the document.
-/
namespace SX
open Spec Gen Spec.Gen

/-- C66: a limited stack changes nothing unless it overflows, whatever the implementations. -/
theorem C66_agrees {σ α : Type} (dbg : Bool) (V : Visitor σ) (D : Deser σ α) (room : Nat) (i : Input) (r : Except Fault (Except Error α))
    (h : readIn dbg V D room i = some r) : read dbg V D i = r := Stack.readIn_agrees dbg V D room i r h

/-- C66, for any implementations: if visitors hand children only to visitors that get by with less room, there is no overflow, whatever the
input: elements that are not read with `read_to` are skipped without further calls, however deep they are. -/
theorem C66_visitors {σ α : Type} (dbg : Bool) (V : Visitor σ) (Safe : Nat → σ → Prop) (hb : Bounded V Safe) (D : Deser σ α) (room : Nat)
    (hD : ∀ info sub k, D info = .readTo sub k → ∃ r, room = r + 1 ∧ Safe r sub) (i : Input) :
    readIn dbg V D room i = some (read dbg V D i) := Stack.readIn_bounded dbg hb D room hD i

/-- A visitor that counts down: `n` hands its children to `n - 1`, and `0` ignores them. -/
def Ex.countdown : Visitor Nat where
  onAttr v _ _ := .ok (v, .ok ())
  onChars v _ _ := .ok (v, .ok ())
  onElem v _ := if v = 0 then .done (.ok (v, .ok ())) else .readTo (v - 1) fun _ r => .ok (v, r.map fun _ => ())

example := C66_visitors true Ex.countdown (fun r v => v ≤ r)
  { attr := by intro r v n s v' e h h'; cases h'; exact h
    chars := by intro r v n s v' e h h'; cases h'; exact h
    done := by
      intro r v i v' e h h'
      simp only [Ex.countdown] at h'
      split at h' <;> cases h'
      exact h
    text := by
      intro r v i k x v' e h h'
      simp only [Ex.countdown] at h'
      split at h' <;> cases h'
    room := by
      intro r v i sub k h h'
      simp only [Ex.countdown] at h'
      split at h' <;> cases h'
      exact ⟨r - 1, by omega, by omega⟩
    after := by
      intro r v i sub k sub' x v' e h h' h''
      simp only [Ex.countdown] at h'
      split at h' <;> cases h'
      cases h''
      exact h }
  (fun _ => .readTo 6 fun _ r => .ok (r.map fun _ => ())) 7 (fun info sub k h => by cases h; exact ⟨6, rfl, Nat.le_refl _⟩)
  (Stack.nestDoc (List.replicate 1000 ⟨"", "unknown"⟩)).input

/-- C66: reading a type that nests at most `room` deep needs room for that many calls, on any input, well-formed or not. -/
theorem C66_bounded (env : Env) (hok : EnvOk env) (dbg : Bool) (room : Nat) (ty : Ty) (h : ¬ Nests env ty (room + 1)) (i : Input) :
    readTyIn dbg env room ty i = some (readTy dbg env ty i) := Stack.readTyIn_bounded hok dbg room ty h i

/-- C66: and this is exact: a type that nests deeper has a document that overflows the stack. -/
theorem C66_exact (env : Env) (hok : EnvOk env) (dbg : Bool) (room : Nat) (ty : Ty) :
    (∀ d : Doc, readTyIn dbg env room ty d.input ≠ none) ↔ ¬ Nests env ty (room + 1) := by
  constructor
  · intro h hn
    obtain ⟨l, hp, hl⟩ := Stack.path_of_nests hn
    exact h _ (Stack.readTyIn_nest hok dbg room ty l hp (by omega))
  · intro h d
    rw [C66_bounded env hok dbg room ty h]
    simp

/-- C66: if structs and enums are ranked from 1 so that the types of children have smaller rank (types that do not contain themselves), the rank
is a bound. -/
theorem C66_ranked (env : Env) (hok : EnvOk env) (rank : Ty → Nat) (h0 : ∀ i, 0 < rank (.strct i) ∧ 0 < rank (.enm i))
    (hr : ∀ ty n ty', use env ty n = .as ty' → rank ty' < rank ty) (dbg : Bool) (ty : Ty) (i : Input) :
    readTyIn dbg env (rank ty) ty i = some (readTy dbg env ty i) := by
  have key : ∀ {ty n}, Nests env ty n → n ≤ rank ty := by
    intro ty n h
    induction h with
    | strct i => exact (h0 i).1
    | enm i => exact (h0 i).2
    | child h _ ih => have := hr _ _ _ h; omega
  exact C66_bounded env hok dbg _ ty (fun h => by have := key h; omega) i

/-- In the example of `Props/Derive.lean`, `Rec` contains `Sub` (through `Choice`), which contains only text: two calls of `read_to` at a time
suffice, for example for a document with a thousand unknown elements inside each other. -/
def Ex.rank : Ty → Nat
  | .text _ => 0
  | .strct 1 => 1
  | _ => 2

theorem Ex.ranked (ty : Ty) (n : EName) (ty' : Ty) (h : use Ex.env ty n = .as ty') : Ex.rank ty' < Ex.rank ty := by
  have small : ∀ e, enumUse (Ex.env.enm e) n = .as ty' → Ex.rank ty' < 2 := by
    intro e h
    unfold enumUse at h
    split at h
    · cases h
    · split at h
      · cases h
      · rename_i v hv
        split at h
        · cases h
        · rename_i s hs
          cases h
          have hm := List.mem_of_getElem? hv
          simp only [Ex.env] at hm
          split at hm
          · simp only [Ex.choice, List.mem_cons, List.not_mem_nil, or_false] at hm
            rcases hm with rfl | rfl | rfl <;> cases hs <;> decide
          · simp only [Ex.other, List.mem_cons, List.not_mem_nil, or_false] at hm
            rcases hm with rfl | rfl <;> cases hs
          · cases hm
  have flat : ∀ l, flatUse Ex.env l n = .as ty' → Ex.rank ty' < 2 := by
    intro l
    induction l with
    | nil => intro h; cases h
    | cons e l ih =>
      intro h
      unfold flatUse at h
      split at h
      · exact ih h
      · exact small e h
  cases ty with
  | text t => cases h
  | enm e => exact small e h
  | strct i =>
    rcases i with _ | _ | _ | i
    · simp only [use, elemUse, Ex.env, Ex.recFields] at h
      split at h
      · exact flat _ h
      · repeat' split at h
        all_goals first | contradiction | (cases h; decide)
    · simp only [use, elemUse, Ex.env, Ex.subFields, flatTypes] at h
      split at h
      · cases h
      · split at h
        · cases h; decide
        · contradiction
    · exact flat _ h
    · cases h

theorem Ex.rank_pos (i : Nat) : 0 < Ex.rank (.strct i) ∧ 0 < Ex.rank (.enm i) := by
  refine ⟨?_, by simp [Ex.rank]⟩
  rcases i with _ | _ | i <;> simp [Ex.rank]

example : readTyIn true Ex.env 2 (.strct 0) (Stack.nestDoc (List.replicate 1000 ⟨"", "unknown"⟩)).input =
    some (readTy true Ex.env (.strct 0) (Stack.nestDoc (List.replicate 1000 ⟨"", "unknown"⟩)).input) :=
  C66_ranked Ex.env Ex.env_ok Ex.rank Ex.rank_pos Ex.ranked true (.strct 0) _

/-- Room for one is not enough for all documents. -/
example : ¬ ∀ d : Doc, readTyIn true Ex.env 1 (.strct 0) d.input ≠ none := by
  rw [C66_exact Ex.env Ex.env_ok]
  exact fun h => h (.child (name := ⟨"", "b"⟩) (ty' := .strct 1) rfl (.strct 1))

/-- C66: for a type that contains itself there is no bound: whatever the size of the stack, there is a document that overflows it. -/
theorem C66_recursive (env : Env) (hok : EnvOk env) (dbg : Bool) (ty : Ty) (h : Reaches env ty ty) (room : Nat) :
    ∃ d : Doc, readTyIn dbg env room ty d.input = none := by
  have up : ∀ {a b : Ty}, Reaches env a b → ∀ n, Nests env b n → ∃ m, n < m ∧ Nests env a m := by
    intro a b h
    induction h with
    | child h => exact fun n hn => ⟨n + 1, by omega, .child h hn⟩
    | trans _ _ ih1 ih2 =>
      intro n hn
      obtain ⟨m, h1, h2⟩ := ih2 n hn
      obtain ⟨m', h3, h4⟩ := ih1 m h2
      exact ⟨m', by omega, h4⟩
  have base : Nests env ty 1 := by
    have : ∀ {a b : Ty}, Reaches env a b → ∃ n, use env a n = .as b ∨ ∃ c, use env a n = .as c := by
      intro a b h
      induction h with
      | child h => exact ⟨_, .inl h⟩
      | trans _ _ ih _ =>
        obtain ⟨n, h | ⟨c, h⟩⟩ := ih
        · exact ⟨n, .inr ⟨_, h⟩⟩
        · exact ⟨n, .inr ⟨c, h⟩⟩
    obtain ⟨n, hn⟩ := this h
    cases ty with
    | text t => rcases hn with hn | ⟨c, hn⟩ <;> cases hn
    | strct i => exact .strct i
    | enm i => exact .enm i
  have deep : ∀ n, ∃ m, n < m ∧ Nests env ty m := by
    intro n
    induction n with
    | zero => exact ⟨1, by omega, base⟩
    | succ n ih =>
      obtain ⟨m, h1, h2⟩ := ih
      obtain ⟨m', h3, h4⟩ := up h m h2
      exact ⟨m', by omega, h4⟩
  obtain ⟨m, h1, h2⟩ := deep room
  obtain ⟨l, hp, hl⟩ := Stack.path_of_nests h2
  exact ⟨_, Stack.readTyIn_nest hok dbg room ty l hp (by omega)⟩

/-- A folder contains folders. -/
theorem ExCrate.reaches : Reaches ExCrate.env (.strct 0) (.strct 0) := .child (name := ⟨"urn:files", "folder"⟩) rfl

example (room : Nat) : ∃ d : Doc, readTyIn true ExCrate.env room (.strct 0) d.input = none :=
  C66_recursive ExCrate.env ExCrate.env_ok true (.strct 0) ExCrate.reaches room

/-- C66 for the emitted code of a crate: it needs the same room. -/
theorem C66_crate (c : Crate) (code : Emitted) (types : Types) (env : Env) (ha : Accepted c code) (hu : Unskipped c) (hd : DeclaresTypes c env)
    (ht : c.Tied code types) (hok : EnvOk env) (dbg : Bool) (room : Nat) (ty : Ty) :
    ((∀ i : Input, c.readIn code types dbg room ty i = some (c.read code types dbg ty i)) ↔ ¬ Nests env ty (room + 1)) ∧
    (Nests env ty (room + 1) → ∃ d : Doc, c.readIn code types dbg room ty d.input = none) := by
  obtain ⟨sOf, eOf, F⟩ := Whole.facts ha hu hd ht
  have over : Nests env ty (room + 1) → ∃ d : Doc, c.readIn code types dbg room ty d.input = none := by
    intro hn
    obtain ⟨l, hp, hl⟩ := Stack.path_of_nests hn
    refine ⟨Stack.nestDoc l, ?_⟩
    have h := Whole.readIn_rel F dbg room ty (Stack.nestDoc l).input
    rw [Stack.readTyIn_nest hok dbg room ty l hp (by omega)] at h
    cases hc : c.readIn code types dbg room ty (Stack.nestDoc l).input with
    | none => rfl
    | some x => rw [hc] at h; exact h.elim
  refine ⟨⟨fun h hn => ?_, fun hn i => ?_⟩, over⟩
  · obtain ⟨d, hd⟩ := over hn
    rw [h] at hd
    cases hd
  · have h := Whole.readIn_rel F dbg room ty i
    rw [C66_bounded env hok dbg room ty hn] at h
    cases hc : c.readIn code types dbg room ty i with
    | none => rw [hc] at h; exact h.elim
    | some x => rw [← C66_agrees _ _ _ _ _ _ hc]; rfl

/-- A crate that is accepted, with a type that contains itself: no stack is large enough for all documents. -/
example (types : Types) (ht : ExCrate.crate.Tied ExCrate.code types) (room : Nat) :
    ∃ d : Doc, ExCrate.crate.readIn ExCrate.code types true room (.strct 0) d.input = none := by
  refine (C66_crate ExCrate.crate ExCrate.code types ExCrate.env ExCrate.accepted ExCrate.unskipped ExCrate.declares ht ExCrate.env_ok true room
    (.strct 0)).2 ?_
  induction room with
  | zero => exact .strct 0
  | succ n ih => exact .child (name := ⟨"urn:files", "folder"⟩) (ty' := .strct 0) rfl ih

end SX
