import Verif.Proof.CostWork

/- Where the input has no error, every event is fetched once. -/
namespace SX.Cost
open Spec.Cost

/-- `n` events fetched from an input without errors. -/
structure Once (n : Nat) (s s' : RState) : Prop where
  final : s'.inner.final = .eof
  fetched : n + s'.inner.items.length = s.inner.items.length

theorem Once.trans {a b : Nat} {s s' s'' : RState} (h : Once a s s') (h' : Once b s' s'') : Once (a + b) s s'' :=
  ⟨h'.final, by have := h.fetched; have := h'.fetched; omega⟩

theorem nextLoop_once (dbg : Bool) (finalPos : Pos) (depth : Nat) (stack : List StackElem) (l : List (XEvent × Pos)) (n : Nat)
    (r : Except Error (Event × Pos)) (s' : RState) (h : nextLoop dbg .eof finalPos depth stack l = (n, .ok (r, s'))) :
    s'.inner.final = .eof ∧ n + s'.inner.items.length = l.length := by
  induction l generalizing n with
  | nil => cases h
  | cons x l ih =>
    obtain ⟨e, pos⟩ := x
    have more : ∀ q : Nat × Out Error (Event × Pos), nextLoop dbg .eof finalPos depth stack l = q → (q.1 + 1, q.2) = (n, .ok (r, s')) →
        s'.inner.final = .eof ∧ n + s'.inner.items.length = (((e, pos) :: l : List (XEvent × Pos))).length := by
      intro q hq h
      obtain ⟨k, q⟩ := q
      cases h
      obtain ⟨h1, h2⟩ := ih k hq
      exact ⟨h1, by simp only [List.length_cons]; omega⟩
    cases e with
    | endElement name =>
      cases depth with
      | zero => cases h
      | succ d =>
        simp only [nextLoop] at h
        revert h
        split
        · intro h; cases h
        · intro h
          cases h
          exact ⟨rfl, by simp only [List.length_cons]; omega⟩
    | misc m => exact more _ rfl h
    | startDocument => exact more _ rfl h
    | _ =>
      simp only [nextLoop] at h
      cases h
      exact ⟨rfl, by simp only [List.length_cons]; omega⟩

theorem next_once (dbg : Bool) (s : RState) (n : Nat) (r : Except Error (Event × Pos)) (s' : RState) (hf : s.inner.final = .eof)
    (h : next dbg s = (n, .ok (r, s'))) : Once n s s' := by
  simp only [next, hf] at h
  revert h
  split
  · intro h; cases h
  · intro h
    obtain ⟨h1, h2⟩ := nextLoop_once _ _ _ _ _ _ _ _ h
    exact ⟨h1, h2⟩

theorem skipLoop_once (dbg : Bool) (target fuel : Nat) (s : RState) (n : Nat) (r : Except Error Unit) (s' : RState) (hf : s.inner.final = .eof)
    (h : skipLoop dbg target fuel s = (n, .ok (r, s'))) : Once n s s' := by
  induction fuel generalizing s n with
  | zero => cases h
  | succ fuel ih =>
    simp only [skipLoop] at h
    revert h
    split
    · generalize hq : next dbg s = q
      obtain ⟨m, _ | ⟨_ | x, s1⟩⟩ := q
      · intro h; cases h
      · intro h
        cases h
        exact next_once _ _ _ _ _ hf hq
      · dsimp only
        have a := next_once _ _ _ _ _ hf hq
        generalize hz : skipLoop dbg target fuel { s1 with stack := s1.stack.take s1.depth } = z
        obtain ⟨k, z⟩ := z
        intro h
        cases h
        have b := ih { s1 with stack := s1.stack.take s1.depth } k a.final hz
        exact a.trans ⟨b.final, b.fetched⟩
    · intro h
      cases h
      exact ⟨hf, by simp⟩

theorem returnToDepth_once (dbg : Bool) (target : Nat) (s : RState) (n : Nat) (r : Except Error Unit) (s' : RState) (hf : s.inner.final = .eof)
    (h : returnToDepth dbg target s = (n, .ok (r, s'))) : Once n s s' := by
  simp only [returnToDepth] at h
  revert h
  split
  · intro h; cases h
  · intro h; exact skipLoop_once _ _ _ _ _ _ _ hf h

theorem readString_once (dbg : Bool) (er : ElemReader) (fuel : Nat) (out : String) (s : RState) (n : Nat) (r : Except VErr String) (s' : RState)
    (hf : s.inner.final = .eof) (h : readString dbg er fuel out s = (n, .ok (r, s'))) : Once n s s' := by
  induction fuel generalizing out s n with
  | zero => cases h
  | succ fuel ih =>
    simp only [readString] at h
    revert h
    split
    · intro h; cases h
    · generalize hq : next dbg s = q
      obtain ⟨m, _ | ⟨_ | ⟨x, pos⟩, s1⟩⟩ := q
      · intro h; cases h
      · intro h
        cases h
        exact next_once _ _ _ _ _ hf hq
      · have a := next_once _ _ _ _ _ hf hq
        cases x with
        | start as ns =>
          dsimp only
          split
          · intro h; cases h
          · intro h
            cases h
            exact a
        | end_ name =>
          intro h
          cases h
          exact a
        | chars str =>
          dsimp only
          generalize hz : readString dbg er fuel _ s1 = z
          obtain ⟨k, z⟩ := z
          intro h
          cases h
          exact a.trans (ih _ _ _ a.final hz)

theorem readLoop_once {σ : Type} (dbg : Bool) (V : Visitor σ) (C : Effort σ) (fuel : Nat) (er : ElemReader) (v : σ) (s : RState) (t : Tally)
    (v' : σ) (r : Except VErr ReadToOk) (s' : RState) (hf : s.inner.final = .eof) (h : readLoop dbg V C fuel er v s = (t, .ok (v', r, s'))) :
    Once t.fetched s s' := by
  induction fuel generalizing er v s t v' r s' with
  | zero => cases h
  | succ fuel ih =>
    simp only [readLoop] at h
    revert h
    split
    · intro h; cases h
    · generalize hq : next dbg s = q
      obtain ⟨n, _ | ⟨_ | ⟨e, pos⟩, s1⟩⟩ := q
      · intro h; cases h
      · intro h
        cases h
        exact next_once _ _ _ _ _ hf hq
      · have a := next_once _ _ _ _ _ hf hq
        cases e with
        | end_ name =>
          intro h
          cases h
          exact a
        | chars str =>
          dsimp only
          cases V.onChars v str pos with
          | error f => intro h; cases h
          | ok x =>
            obtain ⟨v1, _ | _⟩ := x
            · intro h
              cases h
              exact a
            · dsimp only
              generalize hz : readLoop dbg V C fuel er v1 s1 = z
              obtain ⟨k, z⟩ := z
              intro h
              cases h
              exact a.trans (ih _ _ _ _ _ _ _ a.final hz)
        | start as ns =>
          dsimp only
          cases s1.stack[er.stackPos + 1]? with
          | none => intro h; cases h
          | some elem =>
            dsimp only
            have rest : ∀ (w : Nat) (q : Tally × Except Fault ((Except Fault (σ × Except VErr Unit)) × RState)),
                (∀ x s2, q.2 = .ok (x, s2) → Once q.1.fetched s1 s2) →
                (match q with
                  | (t', .error f) => (Tally.add ⟨n, 0, 0, 1, w⟩ t', .error f)
                  | (t', .ok (.error f, _)) => (Tally.add ⟨n, 0, 0, 1, w⟩ t', .error f)
                  | (t', .ok (.ok (v, .error e), s)) => (Tally.add ⟨n, 0, 0, 1, w⟩ t', .ok (v, .error (.propagate (e.toError s.stack pos)), s))
                  | (t', .ok (.ok (v, .ok ()), s)) =>
                    match returnToDepth dbg (er.stackPos + 1) s with
                    | (m, .error f) => ((Tally.add ⟨n, 0, 0, 1, w⟩ t').add (.fetches m), .error f)
                    | (m, .ok (.error e, s)) => ((Tally.add ⟨n, 0, 0, 1, w⟩ t').add (.fetches m), .ok (v, .error (.propagate e), s))
                    | (m, .ok (.ok (), s)) =>
                      match readLoop dbg V C fuel er v s with
                      | (t'', r) => (((Tally.add ⟨n, 0, 0, 1, w⟩ t').add (.fetches m)).add t'', r) : Tally × Except Fault (σ × Except VErr ReadToOk × RState)) = (t, .ok (v', r, s')) → Once t.fetched s s' := by
              intro w q hq
              obtain ⟨t', _ | ⟨_ | ⟨v1, _ | _⟩, s2⟩⟩ := q
              · intro h; cases h
              · intro h; cases h
              · have hq' := hq _ _ rfl
                clear hq
                intro h
                cases h
                exact a.trans hq'
              · have hq' := hq _ _ rfl
                clear hq
                have hq := hq'
                clear hq'
                dsimp only at hq ⊢
                generalize hz : returnToDepth dbg (er.stackPos + 1) s2 = z
                obtain ⟨m, _ | ⟨_ | _, s3⟩⟩ := z
                · intro h; cases h
                · have b := returnToDepth_once _ _ _ _ _ _ hq.final hz
                  intro h
                  cases h
                  exact (a.trans hq).trans b
                · have b := returnToDepth_once _ _ _ _ _ _ hq.final hz
                  dsimp only
                  generalize hy : readLoop dbg V C fuel er v1 s3 = y
                  obtain ⟨t2, y⟩ := y
                  intro h
                  cases h
                  exact ((a.trans hq).trans b).trans (ih _ _ _ _ _ _ _ b.final hy)
            cases V.onElem v { name := elem.name, ns, depth := er.stackPos + 1 + 1 } with
            | done x =>
              refine rest _ (.zero, .ok (x, s1)) ?_
              intro x s2 h
              cases h
              exact ⟨a.final, by simp [Tally.zero]⟩
            | readString k =>
              dsimp only
              generalize hz : readString dbg _ fuel "" s1 = q
              obtain ⟨m, _ | ⟨x, s2⟩⟩ := q
              · intro h; cases h
              · refine rest _ (.fetches m, .ok (k x, s2)) ?_
                intro x' s2' h
                cases h
                exact readString_once _ _ _ _ _ _ _ _ a.final hz
            | readTo sub k =>
              dsimp only
              generalize visitAttrs V C s1.stack elem.pos as sub = q
              obtain ⟨a', w, _ | ⟨sub', _ | _⟩⟩ := q
              · intro h; cases h
              · refine rest _ (⟨0, a', 0, 0, w⟩, .ok (k sub' (.error _), s1)) ?_
                intro x' s2' h
                cases h
                exact ⟨a.final, by simp⟩
              · dsimp only
                generalize hz : readLoop dbg V C fuel _ sub' s1 = q
                obtain ⟨t1, _ | ⟨sub'', x, s2⟩⟩ := q
                · intro h; cases h
                · refine rest _ (_, .ok (k sub'' x, s2)) ?_
                  intro x' s2' h
                  cases h
                  have := ih _ _ _ _ _ _ _ a.final hz
                  exact ⟨this.final, by have := this.fetched; simp only [Tally.add]; omega⟩

theorem runDeser_once {σ α : Type} (dbg : Bool) (V : Visitor σ) (C : Effort σ) (D : Deser σ α) (fuel : Nat) (er : ElemReader) (s : RState) (t : Tally)
    (r : Except VErr α) (s' : RState) (hf : s.inner.final = .eof) (h : runDeser dbg V C D fuel er s = (t, .ok (r, s'))) : Once t.fetched s s' := by
  simp only [runDeser] at h
  revert h
  cases he : s.stack[er.stackPos]? with
  | none => intro h; cases h
  | some elem =>
    dsimp only
    cases D { name := elem.name, ns := er.ns, depth := er.stackPos + 1 } with
    | done x =>
      cases x with
      | error f => intro h; cases h
      | ok x =>
        intro h
        cases h
        exact ⟨hf, by simp [Tally.zero]⟩
    | readString k =>
      dsimp only
      generalize hz : readString dbg er fuel "" s = z
      obtain ⟨m, _ | ⟨x, s1⟩⟩ := z
      · intro h; cases h
      · dsimp only
        have b := readString_once _ _ _ _ _ _ _ _ hf hz
        cases k x with
        | error f => intro h; cases h
        | ok y =>
          intro h
          cases h
          exact b
    | readTo sub k =>
      dsimp only
      simp only [readTo, he]
      generalize visitAttrs V C s.stack elem.pos er.attrs sub = q
      obtain ⟨a', w, _ | ⟨sub', _ | _⟩⟩ := q
      · intro h; cases h
      · dsimp only
        cases k sub' (.error _) with
        | error f => intro h; cases h
        | ok y =>
          intro h
          cases h
          exact ⟨hf, by simp⟩
      · dsimp only
        generalize hz : readLoop dbg V C fuel er sub' s = z
        obtain ⟨t1, _ | ⟨sub'', x, s1⟩⟩ := z
        · intro h; cases h
        · dsimp only
          have b := readLoop_once _ _ _ _ _ _ _ _ _ _ _ hf hz
          cases k sub'' x with
          | error f => intro h; cases h
          | ok y =>
            intro h
            cases h
            exact ⟨b.final, by have := b.fetched; simp only [Tally.add]; omega⟩

theorem endLoop_once (finalPos : Pos) (l : List (XEvent × Pos)) (n : Nat) (h : endLoop .eof finalPos l = (n, .ok ())) : n = l.length + 1 := by
  induction l generalizing n with
  | nil => cases h; rfl
  | cons x l ih =>
    obtain ⟨e, pos⟩ := x
    cases e with
    | misc m =>
      cases m with
      | comment c =>
        simp only [endLoop] at h
        revert h
        generalize hq : endLoop .eof finalPos l = q
        obtain ⟨k, q⟩ := q
        intro h
        cases h
        simp only [ih k hq, List.length_cons]
      | pi c d =>
        simp only [endLoop] at h
        revert h
        generalize hq : endLoop .eof finalPos l = q
        obtain ⟨k, q⟩ := q
        intro h
        cases h
        simp only [ih k hq, List.length_cons]
      | whitespace c => cases h
    | _ => cases h

theorem root_once (dbg : Bool) (s : RState) (n : Nat) (er : ElemReader) (s' : RState) (hf : s.inner.final = .eof) (h : root dbg s = (n, .ok (.ok er, s'))) :
    Once n s s' := by
  have hl := (root_within dbg s n er s' h).2.2.2
  refine ⟨?_, hl⟩
  simp only [root] at h
  revert h
  cases hi : s.inner.items with
  | nil => rw [hf]; intro h; cases h
  | cons x l =>
    obtain ⟨e, pos⟩ := x
    cases e with
    | startDocument =>
      dsimp only
      generalize hz : next dbg _ = z
      obtain ⟨m, _ | ⟨_ | ⟨e, p⟩, s1⟩⟩ := z
      · intro h; cases h
      · intro h; cases h
      · have a := next_once _ _ _ _ _ (by exact hf) hz
        cases e with
        | start as ns =>
          intro h
          cases h
          exact a.final
        | end_ _ => intro h; cases h
        | chars _ => intro h; cases h
    | _ => intro h; cases h

theorem read_once {σ α : Type} (dbg : Bool) (V : Visitor σ) (C : Effort σ) (D : Deser σ α) (i : Input) (a : α) (hf : i.final = .eof)
    (h : (read dbg V C D i).2 = .ok (.ok a)) : (read dbg V C D i).1.fetched = i.items.length + 1 := by
  simp only [read] at h ⊢
  revert h
  generalize hr : root dbg i.start = z
  obtain ⟨n, _ | ⟨_ | er, s⟩⟩ := z
  · intro h; cases h
  · intro h; cases h
  · have b := root_once dbg i.start n er s hf hr
    dsimp only
    generalize hq : runDeser dbg V C D (s.inner.items.length + 1) er s = q
    obtain ⟨t, _ | ⟨_ | x, s'⟩⟩ := q
    · intro h; cases h
    · intro h; cases h
    · have c := runDeser_once _ _ _ _ _ _ _ _ _ _ b.final hq
      dsimp only
      simp only [endDoc]
      generalize hz : returnToDepth dbg 0 s' = z
      obtain ⟨m, _ | ⟨_ | _, s1⟩⟩ := z
      · intro h; cases h
      · intro h; cases h
      · have d := returnToDepth_once _ _ _ _ _ _ c.final hz
        dsimp only
        rw [d.final]
        generalize hy : endLoop .eof s1.inner.finalPos s1.inner.items = y
        obtain ⟨k, _ | _⟩ := y
        · intro h; cases h
        · intro _
          have e := endLoop_once _ _ _ hy
          have := b.fetched
          have := c.fetched
          have := d.fetched
          have : i.start.inner.items.length = i.items.length := rfl
          simp only [Tally.add, Tally.fetches]
          omega

end SX.Cost
