import Verif.Spec.OpenUnwind
import Verif.Proof.Open

/-
Reading is the same for programs that do the same to visitors as reading can leave them (C80).
-/
namespace SX.UnwindDe
open SX.Open Spec.OpenUnwind

section
variable {κ σ : Type} {I : κ → σ → Prop} {V V' : PVisitor σ}

theorem visitAttrs_same (S : SameVisitors I V V') (stack : List StackElem) (pos : Pos) (l : List XAttr) (kind : κ) (v : σ) (hv : I kind v) :
    visitAttrs V stack pos l v = visitAttrs V' stack pos l v ∧ I kind (visitAttrs V stack pos l v).1 := by
  induction l generalizing v with
  | nil => exact ⟨rfl, hv⟩
  | cons a as ih =>
    obtain ⟨h1, h2⟩ := S.attr kind v a.name.expanded a.value hv
    simp only [visitAttrs]
    rw [← h1]
    revert h2
    rcases V.onAttr v a.name.expanded a.value with ⟨v', _ | e | _⟩ <;> intro h2
    · exact ih v' h2
    · exact ⟨rfl, h2⟩
    · exact ⟨rfl, h2⟩

/-- How `read_to` goes on after a child. -/
def afterChild (dbg : Bool) (d : Nat) (pos : Pos) (loop : σ → RState → Except Fault (σ × Ret VErr ReadToOk × RState)) :
    Except Fault ((σ × Ret VErr Unit) × RState) → Except Fault (σ × Ret VErr ReadToOk × RState)
  | .error f => .error f
  | .ok ((v, .err e), s) => .ok (v, .err (.propagate (e.toError s.stack pos)), s)
  | .ok ((v, .panic), s) => .ok (v, .panic, s)
  | .ok ((v, .ok ()), s) =>
    match returnToDepth dbg d s with
    | .error f => .error f
    | .ok (.error e, s) => .ok (v, .err (.propagate e), s)
    | .ok (.ok (), s) => loop v s

/-- What a visitor does with a child. -/
def inChild (dbg : Bool) (V : PVisitor σ) (fuel : Nat) (child : ElemReader) (elem : StackElem) (s : RState) {ρ : Type} :
    PAction σ ρ → Except Fault (ρ × RState)
  | .done r => .ok (r, s)
  | .readString k =>
    match readString dbg child fuel "" s with
    | .error f => .error f
    | .ok (r, s) => .ok (k r, s)
  | .readTo sub k =>
    match visitAttrs V s.stack elem.pos child.attrs sub with
    | (sub, .err e) => .ok (k sub (.err e), s)
    | (sub, .panic) => .ok (k sub .panic, s)
    | (sub, .ok ()) =>
      match readLoop dbg V fuel child sub s with
      | .error f => .error f
      | .ok (sub, r, s) => .ok (k sub r, s)

/-- One event of the loop. -/
def onEvent (dbg : Bool) (V : PVisitor σ) (fuel : Nat) (er : ElemReader) (v : σ) :
    Except Fault (Except Error (Event × Pos) × RState) → Except Fault (σ × Ret VErr ReadToOk × RState)
  | .error f => .error f
  | .ok (.error e, s) => .ok (v, .err (.propagate e), s)
  | .ok (.ok (.end_ name, pos), s) => .ok (v, .ok (name, er.ns, pos), s)
  | .ok (.ok (.chars str, pos), s) =>
    match V.onChars v str pos with
    | (v, .err e) => .ok (v, .err (.propagate { kind := .deserializer e, stack := s.stack, pos }), s)
    | (v, .panic) => .ok (v, .panic, s)
    | (v, .ok ()) => readLoop dbg V fuel er v s
  | .ok (.ok (.start attrs ns, pos), s) =>
    match s.stack[er.stackPos + 1]? with
    | none => .error .panic
    | some elem =>
      afterChild dbg (er.stackPos + 1) pos (readLoop dbg V fuel er)
        (inChild dbg V fuel { ns, attrs, stackPos := er.stackPos + 1 } elem s
          (V.onElem v { name := elem.name, ns, depth := er.stackPos + 1 + 1 }))

theorem readLoop_step (dbg : Bool) (V : PVisitor σ) (fuel : Nat) (er : ElemReader) (v : σ) (s : RState) :
    readLoop dbg V (fuel + 1) er v s =
      if dbg && er.stackPos + 1 != s.stack.length then .error .panic else onEvent dbg V fuel er v (next dbg s) := by
  rw [readLoop]
  by_cases hd : (dbg && er.stackPos + 1 != s.stack.length) = true
  · rw [if_pos hd, if_pos hd]
  rw [if_neg hd, if_neg hd]
  rcases next dbg s with f | ⟨e | ⟨ev, pos⟩, s⟩
  · rfl
  · rfl
  · cases ev with
    | end_ name => rfl
    | chars str => rfl
    | start attrs ns =>
      simp only [onEvent]
      rcases s.stack[er.stackPos + 1]? with _ | elem
      · rfl
      simp only
      cases V.onElem v { name := elem.name, ns, depth := er.stackPos + 1 + 1 } with
      | done r => rcases r with ⟨v', _ | e | _⟩ <;> rfl
      | readString k =>
        simp only [inChild]
        rcases readString dbg { ns, attrs, stackPos := er.stackPos + 1 } fuel "" s with f | ⟨r, s'⟩
        · rfl
        · simp only
          rcases k r with ⟨v', _ | e | _⟩ <;> rfl
      | readTo sub k =>
        simp only [inChild]
        rcases visitAttrs V s.stack elem.pos attrs sub with ⟨v', _ | e | _⟩
        · simp only
          rcases readLoop dbg V fuel { ns, attrs, stackPos := er.stackPos + 1 } v' s with f | ⟨sub', r, s'⟩
          · rfl
          · simp only
            rcases k sub' r with ⟨v', _ | e | _⟩ <;> rfl
        · simp only
          rcases k v' (.err e) with ⟨v', _ | e | _⟩ <;> rfl
        · simp only
          rcases k v' .panic with ⟨v', _ | e | _⟩ <;> rfl

theorem inChild_same (S : SameVisitors I V V') (dbg : Bool) (fuel : Nat) (child : ElemReader) (elem : StackElem) (s : RState) {ρ : Type} {good : ρ → Prop}
    {a a' : PAction σ ρ} (he : Same I good a a')
    (ih : ∀ (er : ElemReader) (kind : κ) (v : σ), I kind v → ∀ s : RState, readLoop dbg V fuel er v s = readLoop dbg V' fuel er v s ∧
      ∀ v' r s', readLoop dbg V fuel er v s = .ok (v', r, s') → I kind v') :
    inChild dbg V fuel child elem s a = inChild dbg V' fuel child elem s a' ∧ ∀ r s', inChild dbg V fuel child elem s a = .ok (r, s') → good r := by
  cases a with
  | done r =>
    cases a' with
    | done r' =>
      obtain ⟨rfl, hg⟩ := he
      exact ⟨rfl, fun _ _ h => by cases h; exact hg⟩
    | readString k' => exact he.elim
    | readTo sub' k' => exact he.elim
  | readString k =>
    cases a' with
    | done r' => exact he.elim
    | readString k' =>
      simp only [inChild]
      rcases readString dbg child fuel "" s with f | ⟨r, s'⟩
      · exact ⟨rfl, fun _ _ h => by cases h⟩
      · exact ⟨by simp only [(he r).1], fun _ _ h => by cases h; exact (he r).2⟩
    | readTo sub' k' => exact he.elim
  | readTo sub k =>
    cases a' with
    | done r' => exact he.elim
    | readString k' => exact he.elim
    | readTo sub' k' =>
      obtain ⟨rfl, kind', hs, hk⟩ := he
      obtain ⟨h1, h2⟩ := visitAttrs_same S s.stack elem.pos child.attrs kind' sub hs
      simp only [inChild]
      rw [← h1]
      revert h2
      rcases visitAttrs V s.stack elem.pos child.attrs sub with ⟨v', _ | e | _⟩ <;> intro h2
      · obtain ⟨h3, h4⟩ := ih child kind' v' h2 s
        simp only
        rw [← h3]
        revert h4
        rcases readLoop dbg V fuel child v' s with f | ⟨sub', r, s'⟩ <;> intro h4
        · exact ⟨rfl, fun _ _ h => by cases h⟩
        · have := hk sub' r (h4 _ _ _ rfl)
          exact ⟨by simp only [this.1], fun _ _ h => by cases h; exact this.2⟩
      · have := hk v' (.err e) h2
        exact ⟨by simp only [this.1], fun _ _ h => by cases h; exact this.2⟩
      · have := hk v' .panic h2
        exact ⟨by simp only [this.1], fun _ _ h => by cases h; exact this.2⟩

theorem readLoop_same (S : SameVisitors I V V') (dbg : Bool) (fuel : Nat) (er : ElemReader) (kind : κ) (v : σ) (hv : I kind v) (s : RState) :
    readLoop dbg V fuel er v s = readLoop dbg V' fuel er v s ∧
      ∀ v' r s', readLoop dbg V fuel er v s = .ok (v', r, s') → I kind v' := by
  induction fuel generalizing er kind v s with
  | zero => exact ⟨rfl, fun _ _ _ h => by cases h⟩
  | succ fuel ih =>
    rw [readLoop_step, readLoop_step]
    by_cases hd : (dbg && er.stackPos + 1 != s.stack.length) = true
    · rw [if_pos hd, if_pos hd]
      exact ⟨rfl, fun _ _ _ h => by cases h⟩
    rw [if_neg hd, if_neg hd]
    rcases next dbg s with f | ⟨e | ⟨ev, pos⟩, s⟩
    · exact ⟨rfl, fun _ _ _ h => by cases h⟩
    · exact ⟨rfl, fun _ _ _ h => by cases h; exact hv⟩
    · cases ev with
      | end_ name => exact ⟨rfl, fun _ _ _ h => by cases h; exact hv⟩
      | chars str =>
        obtain ⟨h1, h2⟩ := S.chars kind v str pos hv
        simp only [onEvent]
        rw [← h1]
        revert h2
        rcases V.onChars v str pos with ⟨v', _ | e | _⟩ <;> intro h2
        · exact ih er kind v' h2 s
        · exact ⟨rfl, fun _ _ _ h => by cases h; exact h2⟩
        · exact ⟨rfl, fun _ _ _ h => by cases h; exact h2⟩
      | start attrs ns =>
        simp only [onEvent]
        rcases s.stack[er.stackPos + 1]? with _ | elem
        · exact ⟨rfl, fun _ _ _ h => by cases h⟩
        simp only
        obtain ⟨h1, h2⟩ := inChild_same S dbg fuel { ns, attrs, stackPos := er.stackPos + 1 } elem s
          (S.elem kind v { name := elem.name, ns, depth := er.stackPos + 1 + 1 } hv) ih
        rw [← h1]
        revert h2
        generalize inChild dbg V fuel { ns, attrs, stackPos := er.stackPos + 1 } elem s
          (V.onElem v { name := elem.name, ns, depth := er.stackPos + 1 + 1 }) = x
        intro hx
        rcases x with f | ⟨⟨v', _ | e | _⟩, s'⟩
        · exact ⟨rfl, fun _ _ _ h => by cases h⟩
        · have hv' := hx _ _ rfl
          simp only [afterChild]
          rcases returnToDepth dbg (er.stackPos + 1) s' with f | ⟨e | _, s''⟩
          · exact ⟨rfl, fun _ _ _ h => by cases h⟩
          · exact ⟨rfl, fun _ _ _ h => by cases h; exact hv'⟩
          · exact ih er kind v' hv' s''
        · exact ⟨rfl, fun _ _ _ h => by cases h; exact hx _ _ rfl⟩
        · exact ⟨rfl, fun _ _ _ h => by cases h; exact hx _ _ rfl⟩

theorem runDeser_step {α : Type} (dbg : Bool) (V : PVisitor σ) (D : PDeser σ α) (fuel : Nat) (er : ElemReader) (s : RState) :
    runDeser dbg V D fuel er s =
      match s.stack[er.stackPos]? with
      | none => .error .panic
      | some elem => inChild dbg V fuel er elem s (D { name := elem.name, ns := er.ns, depth := er.stackPos + 1 }) := by
  unfold runDeser
  rcases h : s.stack[er.stackPos]? with _ | elem
  · rfl
  simp only
  cases D { name := elem.name, ns := er.ns, depth := er.stackPos + 1 } with
  | done r => rfl
  | readString k => rfl
  | readTo sub k =>
    simp only [readTo, inChild, h]
    rcases visitAttrs V s.stack elem.pos er.attrs sub with ⟨v', _ | e | _⟩ <;> rfl

theorem read_same (S : SameVisitors I V V') {α : Type} {D D' : PDeser σ α} (hD : ∀ i, Same I (fun _ => True) (D i) (D' i)) (dbg : Bool) (input : Input) :
    read dbg V D input = read dbg V' D' input := by
  unfold read
  rcases root dbg input.start with f | ⟨e | er, s⟩
  · rfl
  · rfl
  · have : runDeser dbg V D (s.inner.items.length + 1) er s = runDeser dbg V' D' (s.inner.items.length + 1) er s := by
      rw [runDeser_step, runDeser_step]
      rcases s.stack[er.stackPos]? with _ | elem
      · rfl
      · exact (inChild_same S dbg _ er elem s (hD _) (fun er kind v hv s => readLoop_same S dbg _ er kind v hv s)).1
    simp only [this]
end

end SX.UnwindDe

namespace SX.OpenUnwind
open SX.Open SX.UnwindDe Spec.OpenUnwind Spec.Open

variable {κ : Type} {τ α : κ → Type}

/-- After any further call a visitor is still as it can be, and nothing undefined happened. -/
theorem step_reached {raw : (k : κ) → Raw (States τ × Bool) (τ k) (α k)} (hS : ∀ k, Sound (raw k)) {k : κ} {t : τ k} {h : List (Call (States τ × Bool))}
    (ht : run (raw k) h (raw k).new = .ok t) (c : Call (States τ × Bool)) : ∃ t', step (raw k) t c = .ok t' ∧ Reached raw k ⟨k, t'⟩ := by
  obtain ⟨t', h1, _⟩ := hS k (h ++ [c])
  refine ⟨t', ?_, t', h ++ [c], rfl, h1⟩
  rw [run_snoc, ht] at h1
  exact h1

theorem unflag_same {I : κ → States τ → Prop} {ρ ρ' : Type} {good : ρ' → Prop} {a a' : Action (States τ × Bool) ρ} (ha : Alike I a a') (f f' : ρ → ρ')
    (s0 : States τ) (hf : ∀ s : Supply (States τ × Bool), f (give s a) = f' (give s a) ∧ good (f (give s a))) :
    Same I good (unflag (a.map f)) (unflag (a'.map f')) := by
  cases a with
  | done r =>
    cases a' with
    | done r' =>
      cases ha
      exact hf ⟨.error noError, (s0, false), .error noError⟩
    | readString k' => exact ha.elim
    | readTo sub' k' => exact ha.elim
  | readString k =>
    cases a' with
    | done r' => exact ha.elim
    | readString k' =>
      intro x
      have := hf ⟨x, (s0, false), .error noError⟩
      exact ⟨by show f (k x) = f' (k' x); rw [← ha x]; exact this.1, this.2⟩
    | readTo sub' k' => exact ha.elim
  | readTo s k =>
    cases a' with
    | done r' => exact ha.elim
    | readString k' => exact ha.elim
    | readTo s' k' =>
      obtain ⟨rfl, kind, hs, hk⟩ := ha
      have h : ∀ sub r, I kind sub.1 → f (k sub r) = f' (k' sub r) ∧ good (f (k sub r)) := by
        intro sub r hi
        have := hf ⟨.error noError, sub, r⟩
        exact ⟨by rw [← hk sub r hi]; exact this.1, this.2⟩
      refine ⟨rfl, kind, hs, fun sub r hi => ?_⟩
      rcases r with x | e | _
      · exact h (sub, false) (.ok x) hi
      · exact h (sub, false) (.error e) hi
      · exact h (sub, true) (.error noError) hi

theorem visitor_same {raw raw' : (k : κ) → Raw (States τ × Bool) (τ k) (α k)} (hS : ∀ k, Sound (raw k)) (hA : ∀ k, AlikeRaw (Reached raw) (raw k) (raw' k))
    (junk junk' : Junk τ α) : SameVisitors (Reached raw) (visitor raw junk) (visitor raw' junk') where
  attr := by
    rintro k v n s ⟨t, h, rfl, ht⟩
    obtain ⟨t', h1, h2⟩ := step_reached hS ht (.attr n s)
    simp only [visitor, ← (hA k).attr]
    simp only [step] at h1
    revert h1
    rcases (raw k).attr t n s with f | ⟨t1, _ | e | _⟩ <;> intro h1 <;> cases h1 <;> exact ⟨rfl, h2⟩
  chars := by
    rintro k v s p ⟨t, h, rfl, ht⟩
    obtain ⟨t', h1, h2⟩ := step_reached hS ht (.chars s p)
    simp only [visitor, ← (hA k).characters]
    simp only [step] at h1
    revert h1
    rcases (raw k).characters t s p with f | ⟨t1, _ | e | _⟩ <;> intro h1 <;> cases h1 <;> exact ⟨rfl, h2⟩
  elem := by
    rintro k v info ⟨t, h, rfl, ht⟩
    have hst := fun s => step_reached hS ht (.elem info s)
    have hoff := (hA k).elem t info
    simp only [visitor]
    simp only [step] at hst
    revert hst hoff
    rcases (raw k).element t info with f | (t1 | a) <;> rcases (raw' k).element t info with f' | (t1' | a') <;> intro hst hoff
    · obtain ⟨t', h1, _⟩ := hst ⟨.error noError, (⟨k, t⟩, false), .error noError⟩
      cases h1
    · exact hoff.elim
    · exact hoff.elim
    · exact hoff.elim
    · cases hoff
      obtain ⟨t', h1, h2⟩ := hst ⟨.error noError, (⟨k, t⟩, false), .error noError⟩
      cases h1
      exact ⟨rfl, h2⟩
    · exact hoff.elim
    · exact hoff.elim
    · exact hoff.elim
    · refine unflag_same hoff _ _ ⟨k, t⟩ fun s => ?_
      obtain ⟨t', h1, h2⟩ := hst s
      simp only at h1
      revert h1
      rcases give s a with f | ⟨t1, r⟩ <;> intro h1
      · cases h1
      · cases h1
        exact ⟨rfl, h2⟩

theorem conclude_sound {raw : (k : κ) → Raw (States τ × Bool) (τ k) (α k)} (hS : ∀ k, Sound (raw k)) {k : κ} {t : τ k} (ht : Reached raw k ⟨k, t⟩)
    (junk junk' : Ret VErr (α k)) : conclude (ends (raw k)) junk t = conclude (ends (raw k)) junk' t := by
  obtain ⟨t', h, he, hr⟩ := ht
  cases he
  obtain ⟨t1, h1, h2⟩ := hS k h
  rw [hr] at h1
  cases h1
  obtain ⟨t2, res, h3, h4⟩ := h2 none
  simp only [conclude, ends, h3]
  rcases res with _ | e | _
  · obtain ⟨v, hv⟩ := h4 rfl
    simp only [hv]
  · rfl
  · rfl

theorem via_same [DecidableEq κ] {raw : (k : κ) → Raw (States τ × Bool) (τ k) (α k)} (hS : ∀ k, Sound (raw k)) {e : (k : κ) → Ends (τ k) (α k)}
    (he : ∀ k, ends (raw k) = e k) (junk junk' : (k : κ) → Ret VErr (α k)) (k : κ) (i : ElemInfo) :
    Same (Reached raw) (fun _ => True) (via e junk k i) (via e junk' k i) := by
  refine ⟨rfl, k, ⟨_, [], by rw [← he k]; rfl, rfl⟩, fun s r hs => ⟨?_, trivial⟩⟩
  rcases r with x | e | _
  · obtain ⟨t, h, rfl, ht⟩ := hs
    simp only [dif_pos, ← he k]
    exact conclude_sound hS ⟨t, h, rfl, ht⟩ _ _
  · rfl
  · rfl

/-- What is read does not depend on what happens where something undefined happens. -/
theorem program_same [DecidableEq κ] {raw raw' : (k : κ) → Raw (States τ × Bool) (τ k) (α k)} (hS : ∀ k, Sound (raw k))
    (hA : ∀ k, AlikeRaw (Reached raw) (raw k) (raw' k)) {e : (k : κ) → Ends (τ k) (α k)} (he : ∀ k, ends (raw k) = e k) (junk junk' : Junk τ α) (k : κ)
    (dbg : Bool) (input : Input) :
    UnwindDe.read dbg (visitor raw junk) (via e junk.value k) input = UnwindDe.read dbg (visitor raw' junk') (via e junk'.value k) input :=
  read_same (visitor_same hS hA junk junk') (fun i => via_same hS he _ _ k i) dbg input

end SX.OpenUnwind
