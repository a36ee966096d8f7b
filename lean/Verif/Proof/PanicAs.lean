import Verif.Spec.PanicAs
import Verif.Proof.OpenUnwind

/-
A program that returns an error in place of panics does what the other does (C83).
-/
namespace SX.UnwindDe
open SX.Open Spec.Failures Spec.PanicAs

variable [Mark]

theorem stands_toError (stack : List StackElem) (pos : Pos) (e : VErr) : stands (e.toError stack pos) ↔ stands e := by
  cases e with
  | propagate E => exact Iff.rfl
  | wrap d => exact ⟨fun ⟨_, h1, h2⟩ => by cases h1; exact h2, fun h => ⟨_, rfl, h⟩⟩

theorem plain_of_kind {E : Error} (h : ∀ d, E.kind ≠ .deserializer d) : ¬ stands E := fun ⟨d, h1, _⟩ => h d h1

/-- Errors of the reader stand for no panic. -/
def PlainOut {β : Type} (o : Out Error β) : Prop := ∀ e s, o = .ok (.error e, s) → ¬ stands e

theorem plain_nextLoop (dbg : Bool) (final : Final) (finalPos : Pos) (depth : Nat) (stack : List StackElem) (items : List (XEvent × Pos)) :
    PlainOut (nextLoop dbg final finalPos depth stack items) := by
  induction items with
  | nil =>
    intro e s h
    simp only [nextLoop] at h
    cases final with
    | eof => cases h
    | err m p => cases h; exact plain_of_kind fun _ h => by cases h
  | cons i rest ih =>
    obtain ⟨ev, pos⟩ := i
    intro e s h
    cases ev with
    | endElement name =>
      simp only [nextLoop] at h
      cases depth with
      | zero => cases h
      | succ d =>
        simp only at h
        split at h <;> cases h
    | misc _ => exact ih e s h
    | startDocument => exact ih e s h
    | startElement _ _ _ => cases h
    | characters _ => cases h
    | cdata _ => cases h

theorem plain_next (dbg : Bool) (s : RState) : PlainOut (next dbg s) := by
  unfold next
  split
  · exact fun _ _ h => by cases h
  · exact plain_nextLoop _ _ _ _ _ _

theorem plain_skipLoop (dbg : Bool) (target fuel : Nat) (s : RState) : PlainOut (skipLoop dbg target fuel s) := by
  induction fuel generalizing s with
  | zero => exact fun _ _ h => by cases h
  | succ fuel ih =>
    unfold skipLoop
    split
    · have := plain_next dbg s
      revert this
      rcases next dbg s with f | ⟨e | r, s'⟩ <;> intro h
      · exact fun _ _ h => by cases h
      · exact fun _ _ h' => by cases h'; exact h _ _ rfl
      · exact ih _
    · exact fun _ _ h => by cases h

theorem plain_returnToDepth (dbg : Bool) (target : Nat) (s : RState) : PlainOut (returnToDepth dbg target s) := by
  unfold returnToDepth
  split
  · exact fun _ _ h => by cases h
  · exact plain_skipLoop _ _ _ _

theorem plain_readString (dbg : Bool) (er : ElemReader) (fuel : Nat) (out : String) (s : RState) (r : Except VErr String) (s' : RState)
    (h : readString dbg er fuel out s = .ok (r, s')) : Plain r := by
  induction fuel generalizing out s with
  | zero => cases h
  | succ fuel ih =>
    unfold readString at h
    by_cases hd : (dbg && er.stackPos + 1 != s.stack.length) = true
    · rw [if_pos hd] at h; cases h
    rw [if_neg hd] at h
    have hn := plain_next dbg s
    revert hn h
    rcases next dbg s with f | ⟨e | ⟨ev, pos⟩, s1⟩ <;> intro h hn
    · cases h
    · cases h
      exact hn _ _ rfl
    · cases ev with
      | start _ _ =>
        simp only at h
        rcases hl : s1.stack.getLast? with _ | child
        · rw [hl] at h; cases h
        · rw [hl] at h
          cases h
          exact plain_of_kind fun _ h => by cases h
      | end_ _ => cases h; trivial
      | chars str => exact ih _ _ h

theorem plain_root (dbg : Bool) (s : RState) : PlainOut (root dbg s) := by
  unfold root
  intro e s' h
  rcases hi : s.inner.items with _ | ⟨⟨ev, pos⟩, rest⟩
  · rw [hi] at h
    simp only at h
    rcases hf : s.inner.final with _ | ⟨m, p⟩ <;> rw [hf] at h <;> cases h <;> exact plain_of_kind fun _ h => by cases h
  · rw [hi] at h
    cases ev with
    | startDocument =>
      simp only at h
      have hn := plain_next dbg { s with inner := { s.inner with pos, items := rest } }
      revert hn h
      rcases next dbg { s with inner := { s.inner with pos, items := rest } } with f | ⟨e | ⟨ev, pos⟩, s1⟩ <;> intro h hn
      · cases h
      · cases h; exact hn _ _ rfl
      · cases ev <;> cases h <;> exact plain_of_kind fun _ h => by cases h
    | _ => cases h; exact plain_of_kind fun _ h => by cases h

theorem plain_endLoop (final : Final) (finalPos : Pos) (items : List (XEvent × Pos)) (e : Error) (h : endLoop final finalPos items = .error e) :
    ¬ stands e := by
  induction items with
  | nil =>
    simp only [endLoop] at h
    cases final <;> cases h
    exact plain_of_kind fun _ h => by cases h
  | cons i rest ih =>
    obtain ⟨ev, pos⟩ := i
    cases ev with
    | misc m =>
      cases m with
      | comment _ => exact ih h
      | pi _ _ => exact ih h
      | _ => cases h; exact plain_of_kind fun _ h => by cases h
    | _ => cases h; exact plain_of_kind fun _ h => by cases h

theorem plain_endDoc (dbg : Bool) (s : RState) (e : Error) (h : endDoc dbg s = .ok (.error e)) : ¬ stands e := by
  unfold endDoc at h
  have hn := plain_returnToDepth dbg 0 s
  revert hn h
  rcases returnToDepth dbg 0 s with f | ⟨e | _, s1⟩ <;> intro h hn
  · cases h
  · cases h; exact hn _ _ rfl
  · injection h with h
    exact plain_endLoop _ _ _ _ h

section
variable {σ : Type} {V V' : PVisitor σ}

theorem visitAttrs_sim (S : SimVisitors V V') (stack : List StackElem) (pos : Pos) (l : List XAttr) (v : σ) :
    SimMut (visitAttrs V stack pos l v) (visitAttrs V' stack pos l v) := by
  induction l generalizing v with
  | nil => exact ⟨rfl, .ok _⟩
  | cons a as ih =>
    have h := S.attr v a.name.expanded a.value
    simp only [visitAttrs]
    revert h
    generalize V.onAttr v a.name.expanded a.value = x
    generalize V'.onAttr v a.name.expanded a.value = y
    obtain ⟨w, r⟩ := x
    obtain ⟨w', r'⟩ := y
    rintro ⟨h1, h2⟩
    cases h1
    cases h2 with
    | ok a => exact ih _
    | err e he => exact ⟨rfl, .err _ fun h => he ((stands_toError _ _ _).mp h)⟩
    | panic e he => exact ⟨rfl, .panic _ ((stands_toError _ _ _).mpr he)⟩

/-- Results of `read_to`. -/
def SimRead {β : Type} (x y : σ × Ret VErr β × RState) : Prop := x.1 = y.1 ∧ Sim x.2.1 y.2.1 ∧ x.2.2 = y.2.2

theorem inChild_sim (S : SimVisitors V V') (dbg : Bool) (fuel : Nat) (child : ElemReader) (elem : StackElem) (s : RState) {ρ : Type} {R : ρ → ρ → Prop}
    {a a' : PAction σ ρ} (he : SimP R a a')
    (ih : ∀ (er : ElemReader) (v : σ) (s : RState), LikeFault SimRead (readLoop dbg V fuel er v s) (readLoop dbg V' fuel er v s)) :
    LikeFault (fun x y => R x.1 y.1 ∧ x.2 = y.2) (inChild dbg V fuel child elem s a) (inChild dbg V' fuel child elem s a') := by
  cases a <;> cases a' <;> first | exact he.elim | skip
  · exact ⟨he, rfl⟩
  · simp only [inChild]
    have hp := plain_readString dbg child fuel "" s
    revert hp
    rcases readString dbg child fuel "" s with f | ⟨r, s'⟩ <;> intro hp
    · exact rfl
    · exact ⟨he r (hp _ _ rfl), rfl⟩
  · obtain ⟨rfl, hk⟩ := he
    rename_i sub k k'
    have h := visitAttrs_sim S s.stack elem.pos child.attrs sub
    simp only [inChild]
    revert h
    generalize visitAttrs V s.stack elem.pos child.attrs sub = x
    generalize visitAttrs V' s.stack elem.pos child.attrs sub = y
    obtain ⟨w, r⟩ := x
    obtain ⟨w', r'⟩ := y
    rintro ⟨h1, h2⟩
    cases h1
    cases h2 with
    | ok a =>
      have h3 := ih child w s
      simp only
      revert h3
      rcases readLoop dbg V fuel child w s with f | ⟨sub1, r1, s1⟩ <;> rcases readLoop dbg V' fuel child w s with f' | ⟨sub2, r2, s2⟩ <;> intro h3
      · exact h3
      · exact h3.elim
      · exact h3.elim
      · obtain ⟨h4, h5, h6⟩ := h3
        cases h4
        cases h6
        exact ⟨hk _ _ _ h5, rfl⟩
    | err e he => exact ⟨hk _ _ _ (.err _ he), rfl⟩
    | panic e he => exact ⟨hk _ _ _ (.panic _ he), rfl⟩

theorem readLoop_sim (S : SimVisitors V V') (dbg : Bool) (fuel : Nat) (er : ElemReader) (v : σ) (s : RState) :
    LikeFault SimRead (readLoop dbg V fuel er v s) (readLoop dbg V' fuel er v s) := by
  induction fuel generalizing er v s with
  | zero => exact rfl
  | succ fuel ih =>
    rw [readLoop_step, readLoop_step]
    by_cases hd : (dbg && er.stackPos + 1 != s.stack.length) = true
    · rw [if_pos hd, if_pos hd]
      exact rfl
    rw [if_neg hd, if_neg hd]
    have hn := plain_next dbg s
    revert hn
    rcases next dbg s with f | ⟨e | ⟨ev, pos⟩, s⟩ <;> intro hn
    · exact rfl
    · exact ⟨rfl, .err _ (hn _ _ rfl), rfl⟩
    · cases ev with
      | end_ name => exact ⟨rfl, .ok _, rfl⟩
      | chars str =>
        have h := S.chars v str pos
        simp only [onEvent]
        revert h
        generalize V.onChars v str pos = x
        generalize V'.onChars v str pos = y
        obtain ⟨w, r⟩ := x
        obtain ⟨w', r'⟩ := y
        rintro ⟨h1, h2⟩
        cases h1
        cases h2 with
        | ok a => exact ih er w s
        | err e he => exact ⟨rfl, .err _ fun ⟨d, h, h'⟩ => by cases h; exact he h', rfl⟩
        | panic e he => exact ⟨rfl, .panic _ ⟨_, rfl, he⟩, rfl⟩
      | start attrs ns =>
        simp only [onEvent]
        rcases s.stack[er.stackPos + 1]? with _ | elem
        · exact rfl
        simp only
        have h := inChild_sim S dbg fuel { ns, attrs, stackPos := er.stackPos + 1 } elem s
          (S.elem v { name := elem.name, ns, depth := er.stackPos + 1 + 1 }) ih
        revert h
        generalize inChild dbg V fuel { ns, attrs, stackPos := er.stackPos + 1 } elem s
          (V.onElem v { name := elem.name, ns, depth := er.stackPos + 1 + 1 }) = x
        generalize inChild dbg V' fuel { ns, attrs, stackPos := er.stackPos + 1 } elem s
          (V'.onElem v { name := elem.name, ns, depth := er.stackPos + 1 + 1 }) = y
        intro h
        rcases x with f | ⟨⟨w, r⟩, s1⟩ <;> rcases y with f' | ⟨⟨w', r'⟩, s2⟩
        · exact h
        · exact h.elim
        · exact h.elim
        · obtain ⟨⟨h1, h2⟩, h3⟩ := h
          cases h1
          cases h3
          cases h2 with
          | ok a =>
            simp only [afterChild]
            have hr := plain_returnToDepth dbg (er.stackPos + 1) s1
            revert hr
            rcases returnToDepth dbg (er.stackPos + 1) s1 with f | ⟨e | _, s''⟩ <;> intro hr
            · exact rfl
            · exact ⟨rfl, .err _ (hr _ _ rfl), rfl⟩
            · exact ih er _ s''
          | err e he => exact ⟨rfl, .err _ fun h => he ((stands_toError _ _ _).mp h), rfl⟩
          | panic e he => exact ⟨rfl, .panic _ ((stands_toError _ _ _).mpr he), rfl⟩

theorem runDeser_sim (S : SimVisitors V V') {α : Type} {D D' : PDeser σ α} (hD : ∀ i, SimP Sim (D i) (D' i)) (dbg : Bool) (fuel : Nat) (er : ElemReader)
    (s : RState) : LikeFault (fun x y => Sim x.1 y.1 ∧ x.2 = y.2) (runDeser dbg V D fuel er s) (runDeser dbg V' D' fuel er s) := by
  rw [runDeser_step, runDeser_step]
  rcases s.stack[er.stackPos]? with _ | elem
  · exact rfl
  · exact inChild_sim S dbg _ er elem s (hD _) (fun er v s => readLoop_sim S dbg _ er v s)

theorem read_sim (S : SimVisitors V V') {α : Type} {D D' : PDeser σ α} (hD : ∀ i, SimP Sim (D i) (D' i)) (dbg : Bool) (input : Input) :
    LikeFault Sim (read dbg V D input) (read dbg V' D' input) := by
  unfold read
  have hr := plain_root dbg input.start
  revert hr
  rcases root dbg input.start with f | ⟨e | er, s⟩ <;> intro hr
  · exact rfl
  · exact .err _ (hr _ _ rfl)
  · have := runDeser_sim S hD dbg (s.inner.items.length + 1) er s
    simp only
    revert this
    rcases runDeser dbg V D (s.inner.items.length + 1) er s with f | ⟨r, s1⟩ <;>
      rcases runDeser dbg V' D' (s.inner.items.length + 1) er s with f' | ⟨r', s2⟩ <;> intro h
    · exact h
    · exact h.elim
    · exact h.elim
    · obtain ⟨h1, h2⟩ := h
      simp only at h1 h2
      subst h2
      cases h1 with
      | ok a =>
        simp only
        have he := plain_endDoc dbg s1
        revert he
        rcases endDoc dbg s1 with f | (e | _) <;> intro he
        · exact rfl
        · exact .err _ (he _ rfl)
        · exact .ok _
      | err e he => exact .err _ fun h => he ((stands_toError _ _ _).mp h)
      | panic e he => exact .panic _ ((stands_toError _ _ _).mpr he)
end

end SX.UnwindDe
