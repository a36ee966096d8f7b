import Verif.Proof.CostOnce

/- What is not counted is not looked at: another input that begins alike goes alike. -/
namespace SX.Cost
open Spec.Cost

/-- The state with only `k` of the events still to come, and others after them. -/
def alt (more : List (XEvent × Pos)) (final : Final) (finalPos : Pos) (k : Nat) (s : RState) : RState :=
  { s with inner := { s.inner with items := s.inner.items.take k ++ more, final, finalPos } }

variable {more : List (XEvent × Pos)} {fi : Final} {fp : Pos}

theorem nextLoop_seen (dbg : Bool) (final : Final) (finalPos : Pos) (depth : Nat) (stack : List StackElem) (l : List (XEvent × Pos)) (n : Nat)
    (r : Except Error (Event × Pos)) (s1 : RState) (k : Nat) (h : nextLoop dbg final finalPos depth stack l = (n, .ok (r, s1))) (hn : n ≤ k) (hk : k ≤ l.length) :
    nextLoop dbg fi fp depth stack (l.take k ++ more) = (n, .ok (r, alt more fi fp (k - n) s1)) ∧ k - n ≤ s1.inner.items.length ∧ 1 ≤ n := by
  induction l generalizing n k with
  | nil =>
    cases final with
    | eof => cases h
    | err m p =>
      simp only [nextLoop] at h
      cases h
      simp at hk
      omega
  | cons x l ih =>
    obtain ⟨e, pos⟩ := x
    have more' : ∀ q : Nat × Out Error (Event × Pos), nextLoop dbg final finalPos depth stack l = q → (q.1 + 1, q.2) = (n, .ok (r, s1)) →
        ((nextLoop dbg fi fp depth stack (l.take (k - 1) ++ more)).1 + 1, (nextLoop dbg fi fp depth stack (l.take (k - 1) ++ more)).2) =
          (n, .ok (r, alt more fi fp (k - n) s1)) ∧ k - n ≤ s1.inner.items.length ∧ 1 ≤ n := by
      intro q hq h
      obtain ⟨m, q⟩ := q
      cases h
      obtain ⟨h1, h2, h3⟩ := ih m (k - 1) hq (by omega) (by simp at hk; omega)
      rw [h1, show k - (m + 1) = k - 1 - m by omega]
      exact ⟨rfl, h2, by omega⟩
    have hk1 : 1 ≤ k := by
      cases e with
      | endElement name =>
        simp only [nextLoop] at h
        cases depth with
        | zero => cases h
        | succ d =>
          dsimp only at h
          revert h
          split
          · intro h; cases h
          · intro h; cases h; omega
      | misc m =>
        simp only [nextLoop] at h
        injection h with h _
        omega
      | startDocument =>
        simp only [nextLoop] at h
        injection h with h _
        omega
      | _ =>
        simp only [nextLoop] at h
        injection h with h _
        omega
    have hl : ∀ m, m = k - 1 → m ≤ l.length := by intro m hm; simp at hk; omega
    obtain ⟨k, rfl⟩ : ∃ k', k = k' + 1 := ⟨k - 1, by omega⟩
    simp only [List.take_succ_cons, List.cons_append, Nat.add_sub_cancel] at more' ⊢
    have hlk : k ≤ l.length := hl k rfl
    cases e with
    | endElement name =>
      simp only [nextLoop] at h ⊢
      cases depth with
      | zero => cases h
      | succ d =>
        dsimp only at h ⊢
        revert h
        split
        · intro h; cases h
        · intro h
          cases h
          exact ⟨rfl, hlk, Nat.le_refl _⟩
    | misc m => simp only [nextLoop] at h ⊢; exact more' _ rfl h
    | startDocument => simp only [nextLoop] at h ⊢; exact more' _ rfl h
    | _ =>
      simp only [nextLoop] at h ⊢
      cases h
      exact ⟨rfl, hlk, Nat.le_refl _⟩

theorem next_seen (dbg : Bool) (s : RState) (n : Nat) (r : Except Error (Event × Pos)) (s1 : RState) (k : Nat) (h : next dbg s = (n, .ok (r, s1))) (hn : n ≤ k)
    (hk : k ≤ s.inner.items.length) : next dbg (alt more fi fp k s) = (n, .ok (r, alt more fi fp (k - n) s1)) ∧ k - n ≤ s1.inner.items.length ∧ 1 ≤ n := by
  simp only [next] at h ⊢
  revert h
  show (if _ then _ else _) = _ → (if (dbg && s.stack.length != s.depth) = true then _ else _) = _ ∧ _
  split
  · intro h; cases h
  · intro h; exact nextLoop_seen _ _ _ _ _ _ _ _ _ _ h hn hk

theorem skipLoop_seen (dbg : Bool) (target fuel fuel' : Nat) (s : RState) (n : Nat) (r : Except Error Unit) (s1 : RState) (k : Nat)
    (h : skipLoop dbg target fuel s = (n, .ok (r, s1))) (hn : n ≤ k) (hk : k ≤ s.inner.items.length) (hf : k < fuel') :
    skipLoop dbg target fuel' (alt more fi fp k s) = (n, .ok (r, alt more fi fp (k - n) s1)) ∧ k - n ≤ s1.inner.items.length := by
  induction fuel generalizing s n k fuel' with
  | zero => cases h
  | succ fuel ih =>
    obtain ⟨fuel', rfl⟩ : ∃ f, fuel' = f + 1 := ⟨fuel' - 1, by omega⟩
    simp only [skipLoop] at h ⊢
    revert h
    show (if _ then _ else _) = _ → (if s.depth > target then _ else _) = _ ∧ _
    split
    · generalize hq : next dbg s = q
      obtain ⟨m, _ | ⟨_ | x, s2⟩⟩ := q
      · intro h; cases h
      · intro h
        cases h
        obtain ⟨h1, h2, h3⟩ := next_seen (more := more) (fi := fi) (fp := fp) _ _ _ _ _ _ hq hn hk
        rw [h1]
        exact ⟨rfl, h2⟩
      · dsimp only
        generalize hz : skipLoop dbg target fuel { s2 with stack := s2.stack.take s2.depth } = z
        obtain ⟨j, z⟩ := z
        intro h
        cases h
        obtain ⟨h1, h2, h3⟩ := next_seen (more := more) (fi := fi) (fp := fp) _ _ _ _ _ _ hq (by omega) hk
        rw [h1]
        obtain ⟨h4, h5⟩ := ih fuel' _ j (k - m) hz (by omega) h2 (by omega)
        dsimp only
        rw [show ({ alt more fi fp (k - m) s2 with stack := (alt more fi fp (k - m) s2).stack.take (alt more fi fp (k - m) s2).depth } : RState) =
          alt more fi fp (k - m) { s2 with stack := s2.stack.take s2.depth } from rfl, h4, show k - (m + j) = k - m - j by omega]
        exact ⟨rfl, h5⟩
    · intro h
      cases h
      exact ⟨rfl, hk⟩

theorem returnToDepth_seen (dbg : Bool) (target : Nat) (s : RState) (n : Nat) (r : Except Error Unit) (s1 : RState) (k : Nat)
    (h : returnToDepth dbg target s = (n, .ok (r, s1))) (hn : n ≤ k) (hk : k ≤ s.inner.items.length) :
    returnToDepth dbg target (alt more fi fp k s) = (n, .ok (r, alt more fi fp (k - n) s1)) ∧ k - n ≤ s1.inner.items.length := by
  simp only [returnToDepth] at h ⊢
  revert h
  show (if _ then _ else _) = _ → (if (dbg && decide (s.depth < target)) = true then _ else _) = _ ∧ _
  split
  · intro h; cases h
  · intro h
    refine skipLoop_seen _ _ _ _ _ _ _ _ _ h hn hk ?_
    simp only [alt, List.length_append, List.length_take]
    omega

theorem readString_seen (dbg : Bool) (er : ElemReader) (fuel fuel' : Nat) (out : String) (s : RState) (n : Nat) (r : Except VErr String) (s1 : RState) (k : Nat)
    (h : readString dbg er fuel out s = (n, .ok (r, s1))) (hn : n ≤ k) (hk : k ≤ s.inner.items.length) (hf : k < fuel') :
    readString dbg er fuel' out (alt more fi fp k s) = (n, .ok (r, alt more fi fp (k - n) s1)) ∧ k - n ≤ s1.inner.items.length := by
  induction fuel generalizing out s n k fuel' with
  | zero => cases h
  | succ fuel ih =>
    obtain ⟨fuel', rfl⟩ : ∃ f, fuel' = f + 1 := ⟨fuel' - 1, by omega⟩
    simp only [readString] at h ⊢
    revert h
    show (if _ then _ else _) = _ → (if (dbg && er.stackPos + 1 != s.stack.length) = true then _ else _) = _ ∧ _
    split
    · intro h; cases h
    · generalize hq : next dbg s = q
      obtain ⟨m, _ | ⟨_ | ⟨x, pos⟩, s2⟩⟩ := q
      · intro h; cases h
      · intro h
        cases h
        obtain ⟨h1, h2, h3⟩ := next_seen (more := more) (fi := fi) (fp := fp) _ _ _ _ _ _ hq hn hk
        rw [h1]
        exact ⟨rfl, h2⟩
      · cases x with
        | start as ns =>
          dsimp only
          cases hs : s2.stack.getLast? with
          | none => intro h; cases h
          | some child =>
            intro h
            cases h
            obtain ⟨h1, h2, h3⟩ := next_seen (more := more) (fi := fi) (fp := fp) _ _ _ _ _ _ hq hn hk
            rw [h1]
            dsimp only
            rw [show (alt more fi fp (k - n) s1).stack = s1.stack from rfl, hs]
            exact ⟨rfl, h2⟩
        | end_ name =>
          intro h
          cases h
          obtain ⟨h1, h2, h3⟩ := next_seen (more := more) (fi := fi) (fp := fp) _ _ _ _ _ _ hq hn hk
          rw [h1]
          exact ⟨rfl, h2⟩
        | chars str =>
          dsimp only
          generalize hz : readString dbg er fuel _ s2 = z
          obtain ⟨j, z⟩ := z
          intro h
          cases h
          obtain ⟨h1, h2, h3⟩ := next_seen (more := more) (fi := fi) (fp := fp) _ _ _ _ _ _ hq (by omega) hk
          rw [h1]
          obtain ⟨h4, h5⟩ := ih fuel' _ _ j (k - m) hz (by omega) h2 (by omega)
          dsimp only
          rw [h4, show k - (m + j) = k - m - j by omega]
          exact ⟨rfl, h5⟩

/-- What `read_to` does after a visitor's `element`, `t` being counted so far. -/
def afterElem {σ : Type} (dbg : Bool) (V : Visitor σ) (C : Effort σ) (fuel : Nat) (er : ElemReader) (pos : Pos) (t : Tally)
    (q : Tally × Except Fault ((Except Fault (σ × Except VErr Unit)) × RState)) : Tally × Except Fault (σ × Except VErr ReadToOk × RState) :=
  match q with
  | (t', .error f) => (t.add t', .error f)
  | (t', .ok (.error f, _)) => (t.add t', .error f)
  | (t', .ok (.ok (v, .error e), s)) => (t.add t', .ok (v, .error (.propagate (e.toError s.stack pos)), s))
  | (t', .ok (.ok (v, .ok ()), s)) =>
    match returnToDepth dbg (er.stackPos + 1) s with
    | (m, .error f) => ((t.add t').add (.fetches m), .error f)
    | (m, .ok (.error e, s)) => ((t.add t').add (.fetches m), .ok (v, .error (.propagate e), s))
    | (m, .ok (.ok (), s)) =>
      match readLoop dbg V C fuel er v s with
      | (t'', r) => (((t.add t').add (.fetches m)).add t'', r)

theorem readLoop_seen {σ : Type} (dbg : Bool) (V : Visitor σ) (C : Effort σ) (fuel fuel' : Nat) (er : ElemReader) (v : σ) (s : RState) (t : Tally)
    (v' : σ) (r : Except VErr ReadToOk) (s' : RState) (k : Nat) (h : readLoop dbg V C fuel er v s = (t, .ok (v', r, s'))) (hn : t.fetched ≤ k)
    (hk : k ≤ s.inner.items.length) (hf : k < fuel') :
    readLoop dbg V C fuel' er v (alt more fi fp k s) = (t, .ok (v', r, alt more fi fp (k - t.fetched) s')) ∧ k - t.fetched ≤ s'.inner.items.length := by
  induction fuel generalizing er v s t v' r s' k fuel' with
  | zero => cases h
  | succ fuel ih =>
    obtain ⟨fuel', rfl⟩ : ∃ f, fuel' = f + 1 := ⟨fuel' - 1, by omega⟩
    simp only [readLoop] at h ⊢
    revert h
    show (if _ then _ else _) = _ → (if (dbg && er.stackPos + 1 != s.stack.length) = true then _ else _) = _ ∧ _
    split
    · intro h; cases h
    · generalize hq : next dbg s = q
      obtain ⟨n, _ | ⟨_ | ⟨e, pos⟩, s1⟩⟩ := q
      · intro h; cases h
      · intro h
        cases h
        obtain ⟨h1, h2, h3⟩ := next_seen (more := more) (fi := fi) (fp := fp) _ _ _ _ _ _ hq hn hk
        rw [h1]
        exact ⟨rfl, h2⟩
      · have a := fun hn => next_seen (more := more) (fi := fi) (fp := fp) _ _ _ _ _ k hq hn hk
        cases e with
        | end_ name =>
          intro h
          cases h
          obtain ⟨h1, h2, h3⟩ := a hn
          rw [h1]
          exact ⟨rfl, h2⟩
        | chars str =>
          dsimp only
          cases hc : V.onChars v str pos with
          | error f => intro h; cases h
          | ok x =>
            obtain ⟨v1, _ | _⟩ := x
            · intro h
              cases h
              obtain ⟨h1, h2, h3⟩ := a hn
              rw [h1]
              dsimp only
              rw [hc]
              exact ⟨rfl, h2⟩
            · dsimp only
              generalize hz : readLoop dbg V C fuel er v1 s1 = z
              obtain ⟨t1, z⟩ := z
              intro h
              cases h
              simp only [Tally.add] at hn ⊢
              obtain ⟨h1, h2, h3⟩ := a (by omega)
              rw [h1]
              dsimp only
              rw [hc]
              obtain ⟨h4, h5⟩ := ih fuel' _ _ _ _ _ _ _ (k - n) hz (by omega) h2 (by omega)
              dsimp only
              rw [h4, Nat.sub_add_eq]
              exact ⟨rfl, h5⟩
        | start as ns =>
          dsimp only
          cases hs : s1.stack[er.stackPos + 1]? with
          | none => intro h; cases h
          | some elem =>
            dsimp only
            have rest : ∀ (w : Nat) (q q' : Tally × Except Fault ((Except Fault (σ × Except VErr Unit)) × RState)),
                (∀ x s2, q.2 = .ok (x, s2) → n + q.1.fetched ≤ k → k - n ≤ s1.inner.items.length → k - n < fuel' →
                  q' = (q.1, .ok (x, alt more fi fp (k - n - q.1.fetched) s2)) ∧ k - n - q.1.fetched ≤ s2.inner.items.length) →
                afterElem dbg V C fuel er pos ⟨n, 0, 0, 1, w⟩ q = (t, .ok (v', r, s')) →
                afterElem dbg V C fuel' er pos ⟨n, 0, 0, 1, w⟩ q' = (t, .ok (v', r, alt more fi fp (k - t.fetched) s')) ∧
                  k - t.fetched ≤ s'.inner.items.length ∧ n ≤ k := by
              intro w q q' hq h
              have hnk : n ≤ k := by
                obtain ⟨t', _ | ⟨_ | ⟨v1, _ | _⟩, s2⟩⟩ := q
                · cases h
                · cases h
                · cases h
                  simp only [Tally.add] at hn
                  omega
                · simp only [afterElem] at h
                  revert h
                  generalize returnToDepth dbg (er.stackPos + 1) s2 = z
                  obtain ⟨m, _ | ⟨_ | _, s3⟩⟩ := z
                  · intro h; cases h
                  · intro h
                    cases h
                    simp only [Tally.add, Tally.fetches] at hn
                    omega
                  · dsimp only
                    generalize readLoop dbg V C fuel er v1 s3 = y
                    obtain ⟨t2, y⟩ := y
                    intro h
                    cases h
                    simp only [Tally.add, Tally.fetches] at hn
                    omega
              obtain ⟨h1, h2, h3⟩ := a hnk
              obtain ⟨t', _ | ⟨_ | ⟨v1, _ | _⟩, s2⟩⟩ := q
              · cases h
              · cases h
              · have hq' := hq _ _ rfl
                clear hq
                cases h
                simp only [Tally.add] at hn hq' ⊢
                obtain ⟨h4, h5⟩ := hq' hn h2 (by omega)
                rw [h4, Nat.sub_add_eq]
                exact ⟨rfl, h5, hnk⟩
              · have hq' := hq _ _ rfl
                clear hq
                dsimp only at hq'
                simp only [afterElem] at h
                revert h
                generalize hz : returnToDepth dbg (er.stackPos + 1) s2 = z
                obtain ⟨m, _ | ⟨_ | _, s3⟩⟩ := z
                · intro h; cases h
                · intro h
                  cases h
                  simp only [Tally.add, Tally.fetches] at hn ⊢
                  obtain ⟨h4, h5⟩ := hq' (by omega) h2 (by omega)
                  obtain ⟨h6, h7⟩ := returnToDepth_seen (more := more) (fi := fi) (fp := fp) _ _ _ _ _ _ _ hz (by omega) h5
                  rw [h4]
                  simp only [afterElem]
                  rw [h6, show k - (n + t'.fetched + m) = k - n - t'.fetched - m by omega]
                  exact ⟨rfl, h7, hnk⟩
                · dsimp only
                  generalize hy : readLoop dbg V C fuel er v1 s3 = y
                  obtain ⟨t2, y⟩ := y
                  intro h
                  cases h
                  simp only [Tally.add, Tally.fetches] at hn ⊢
                  obtain ⟨h4, h5⟩ := hq' (by omega) h2 (by omega)
                  obtain ⟨h6, h7⟩ := returnToDepth_seen (more := more) (fi := fi) (fp := fp) _ _ _ _ _ _ _ hz (by omega) h5
                  obtain ⟨h8, h9⟩ := ih fuel' _ _ _ _ _ _ _ (k - n - t'.fetched - m) hy (by omega) h7 (by omega)
                  rw [h4]
                  simp only [afterElem]
                  rw [h6]
                  dsimp only
                  rw [h8, show k - (n + t'.fetched + m + t2.fetched) = k - n - t'.fetched - m - t2.fetched by omega]
                  exact ⟨rfl, h9, hnk⟩
            have conc : ∀ (q : Tally × Except Fault ((Except Fault (σ × Except VErr Unit)) × RState)) (w : Nat) (R : _),
                (afterElem dbg V C fuel' er pos ⟨n, 0, 0, 1, w⟩ q = R ∧ k - t.fetched ≤ s'.inner.items.length ∧ n ≤ k) →
                (next dbg (alt more fi fp k s) = (n, .ok (.ok (.start as ns, pos), alt more fi fp (k - n) s1)) ∧
                  afterElem dbg V C fuel' er pos ⟨n, 0, 0, 1, w⟩ q = R) ∧ k - t.fetched ≤ s'.inner.items.length :=
              fun q w R h => ⟨⟨(a h.2.2).1, h.1⟩, h.2.1⟩
            cases ho : V.onElem v { name := elem.name, ns, depth := er.stackPos + 1 + 1 } with
            | done x =>
              intro h
              obtain ⟨⟨h1, h2⟩, h3⟩ := conc _ _ _ (rest _ (.zero, .ok (x, s1)) (.zero, .ok (x, alt more fi fp (k - n) s1)) (by
                intro x' s2 h hn hl _
                cases h
                exact ⟨rfl, hl⟩) h)
              rw [h1]
              dsimp only
              rw [show (alt more fi fp (k - n) s1).stack = s1.stack from rfl, hs]
              dsimp only
              rw [ho]
              exact ⟨h2, h3⟩
            | readString g =>
              dsimp only
              generalize hz : readString dbg _ fuel "" s1 = q
              obtain ⟨m, _ | ⟨x, s2⟩⟩ := q
              · intro h; cases h
              · intro h
                obtain ⟨⟨h1, h2⟩, h3⟩ := conc _ _ _ (rest _ (.fetches m, .ok (g x, s2))
                  (match readString dbg { ns, attrs := as, stackPos := er.stackPos + 1 } fuel' "" (alt more fi fp (k - n) s1) with
                    | (n, .error f) => (.fetches n, .error f)
                    | (n, .ok (r, s)) => (.fetches n, .ok (g r, s))) (by
                  intro x' s2' h hn hl hf
                  cases h
                  obtain ⟨h4, h5⟩ := readString_seen (more := more) (fi := fi) (fp := fp) _ _ _ fuel' _ _ _ _ _ (k - n) hz
                    (by simp only [Tally.fetches] at hn; omega) hl hf
                  rw [h4]
                  exact ⟨rfl, h5⟩) h)
                rw [h1]
                dsimp only
                rw [show (alt more fi fp (k - n) s1).stack = s1.stack from rfl, hs]
                dsimp only
                rw [ho]
                exact ⟨h2, h3⟩
            | readTo sub g =>
              dsimp only
              generalize hv : visitAttrs V C s1.stack elem.pos as sub = q
              obtain ⟨a', w, _ | ⟨sub', _ | _⟩⟩ := q
              · intro h; cases h
              · intro h
                obtain ⟨⟨h1, h2⟩, h3⟩ := conc _ _ _ (rest _ (⟨0, a', 0, 0, w⟩, .ok (g sub' (.error _), s1))
                  (⟨0, a', 0, 0, w⟩, .ok (g sub' (.error _), alt more fi fp (k - n) s1)) (by
                  intro x' s2 h hn hl _
                  cases h
                  exact ⟨rfl, hl⟩) h)
                rw [h1]
                dsimp only
                rw [show (alt more fi fp (k - n) s1).stack = s1.stack from rfl, hs]
                dsimp only
                rw [ho]
                dsimp only
                rw [hv]
                exact ⟨h2, h3⟩
              · dsimp only
                generalize hz : readLoop dbg V C fuel _ sub' s1 = q
                obtain ⟨t1, _ | ⟨sub'', x, s2⟩⟩ := q
                · intro h; cases h
                · intro h
                  obtain ⟨⟨h1, h2⟩, h3⟩ := conc _ _ _ (rest _ (Tally.add ⟨0, a', 0, 0, w⟩ t1, .ok (g sub'' x, s2))
                    (match readLoop dbg V C fuel' { ns, attrs := as, stackPos := er.stackPos + 1 } sub' (alt more fi fp (k - n) s1) with
                      | (t, .error f) => (Tally.add ⟨0, a', 0, 0, w⟩ t, .error f)
                      | (t, .ok (sub, r, s)) => (Tally.add ⟨0, a', 0, 0, w⟩ t, .ok (g sub r, s))) (by
                    intro x' s2' h hn hl hf
                    cases h
                    simp only [Tally.add, Nat.zero_add] at hn ⊢
                    obtain ⟨h4, h5⟩ := ih fuel' _ _ _ _ _ _ _ (k - n) hz (by omega) hl hf
                    rw [h4]
                    exact ⟨rfl, h5⟩) h)
                  rw [h1]
                  dsimp only
                  rw [show (alt more fi fp (k - n) s1).stack = s1.stack from rfl, hs]
                  dsimp only
                  rw [ho]
                  dsimp only
                  rw [hv]
                  exact ⟨h2, h3⟩

theorem runDeser_seen {σ α : Type} (dbg : Bool) (V : Visitor σ) (C : Effort σ) (D : Deser σ α) (fuel fuel' : Nat) (er : ElemReader) (s : RState) (t : Tally)
    (r : Except VErr α) (s' : RState) (k : Nat) (h : runDeser dbg V C D fuel er s = (t, .ok (r, s'))) (hn : t.fetched ≤ k)
    (hk : k ≤ s.inner.items.length) (hf : k < fuel') :
    runDeser dbg V C D fuel' er (alt more fi fp k s) = (t, .ok (r, alt more fi fp (k - t.fetched) s')) ∧ k - t.fetched ≤ s'.inner.items.length := by
  simp only [runDeser] at h ⊢
  rw [show (alt more fi fp k s).stack = s.stack from rfl]
  revert h
  cases he : s.stack[er.stackPos]? with
  | none => intro h; cases h
  | some elem =>
    dsimp only
    cases D { name := elem.name, ns := er.ns, depth := er.stackPos + 1 } with
    | done x =>
      cases x with
      | error f => intro h; cases h
      | ok x =>
        intro h
        cases h
        exact ⟨rfl, hk⟩
    | readString g =>
      dsimp only
      generalize hz : readString dbg er fuel "" s = z
      obtain ⟨m, _ | ⟨x, s1⟩⟩ := z
      · intro h; cases h
      · dsimp only
        have b := fun hn => readString_seen (more := more) (fi := fi) (fp := fp) _ _ _ fuel' _ _ _ _ _ k hz hn hk hf
        cases hg : g x with
        | error f => intro h; cases h
        | ok y =>
          intro h
          cases h
          obtain ⟨h1, h2⟩ := b hn
          rw [h1]
          dsimp only
          rw [hg]
          exact ⟨rfl, h2⟩
    | readTo sub g =>
      dsimp only
      simp only [readTo]
      rw [show (alt more fi fp k s).stack = s.stack from rfl]
      simp only [he]
      generalize visitAttrs V C s.stack elem.pos er.attrs sub = q
      obtain ⟨a', w, _ | ⟨sub', _ | _⟩⟩ := q
      · intro h; cases h
      · dsimp only
        cases g sub' (.error _) with
        | error f => intro h; cases h
        | ok y =>
          intro h
          cases h
          exact ⟨rfl, hk⟩
      · dsimp only
        generalize hz : readLoop dbg V C fuel er sub' s = z
        obtain ⟨t1, _ | ⟨sub'', x, s1⟩⟩ := z
        · intro h; cases h
        · dsimp only
          have b := fun hn => readLoop_seen (more := more) (fi := fi) (fp := fp) _ _ _ _ fuel' _ _ _ _ _ _ _ k hz hn hk hf
          cases hg : g sub'' x with
          | error f => intro h; cases h
          | ok y =>
            intro h
            cases h
            simp only [Tally.add, Nat.zero_add] at hn ⊢
            obtain ⟨h1, h2⟩ := b hn
            rw [h1]
            dsimp only
            rw [hg]
            exact ⟨rfl, h2⟩

theorem root_seen (dbg : Bool) (s : RState) (n : Nat) (r : Except Error ElemReader) (s' : RState) (k : Nat) (h : root dbg s = (n, .ok (r, s'))) (hn : n ≤ k)
    (hk : k ≤ s.inner.items.length) : root dbg (alt more fi fp k s) = (n, .ok (r, alt more fi fp (k - n) s')) ∧ k - n ≤ s'.inner.items.length := by
  obtain ⟨⟨pos, items, final, finalPos⟩, depth, stack⟩ := s
  cases items with
  | nil =>
    have : n = 1 := by
      cases final with
      | eof => cases h; rfl
      | err m p => cases h; rfl
    simp at hk
    omega
  | cons x l =>
    obtain ⟨e, pos1⟩ := x
    have hk' : k ≤ l.length + 1 := hk
    by_cases he : e = .startDocument
    · cases he
      simp only [root] at h
      revert h
      generalize hq : next dbg { inner := { pos := pos1, items := l, final, finalPos }, depth, stack } = q
      intro h
      have hk1 : 1 ≤ k := by
        obtain ⟨m, _ | ⟨_ | ⟨x, p⟩, s1⟩⟩ := q
        · cases h
        · cases h; omega
        · cases x <;> (cases h; omega)
      obtain ⟨k, rfl⟩ : ∃ k', k = k' + 1 := ⟨k - 1, by omega⟩
      have ha : root dbg (alt more fi fp (k + 1) { inner := { pos, items := (.startDocument, pos1) :: l, final, finalPos }, depth, stack }) =
          (match next dbg (alt more fi fp k { inner := { pos := pos1, items := l, final, finalPos }, depth, stack }) with
            | (n, .error f) => (n + 1, .error f)
            | (n, .ok (.error e, s)) => (n + 1, .ok (.error e, s))
            | (n, .ok (.ok (.start attrs ns, _), s)) => (n + 1, .ok (.ok { ns, attrs, stackPos := 0 }, s))
            | (n, .ok (.ok (_, pos), s)) => (n + 1, .ok (.error { kind := .msg .expectedStartElement, stack := [], pos }, s))) := rfl
      rw [ha]
      obtain ⟨m, _ | ⟨y, s1⟩⟩ := q
      · cases h
      · have hnm : n = m + 1 ∧ s1 = s' := by
          obtain _ | ⟨x, p⟩ := y
          · cases h; exact ⟨rfl, rfl⟩
          · cases x <;> (cases h; exact ⟨rfl, rfl⟩)
        obtain ⟨rfl, rfl⟩ := hnm
        obtain ⟨h1, h2, _⟩ := next_seen (more := more) (fi := fi) (fp := fp) _ _ _ _ _ k hq (by omega) (by simpa using hk')
        rw [h1, show k + 1 - (m + 1) = k - m by omega]
        obtain _ | ⟨x, p⟩ := y
        · cases h
          exact ⟨rfl, h2⟩
        · cases x <;> (cases h; exact ⟨rfl, h2⟩)
    · have h0 : ∀ (s0 : RState) (l0 : List (XEvent × Pos)), s0.inner.items = (e, pos1) :: l0 → root dbg s0 = (1, .ok (.error { kind := .msg .expectedStartDocument, stack := [], pos := pos1 },
          { s0 with inner := { s0.inner with pos := pos1, items := l0 } })) := by
        intro s0 l0 h0
        simp only [root, h0]
      rw [h0 _ l rfl] at h
      cases h
      obtain ⟨k, rfl⟩ : ∃ k', k = k' + 1 := ⟨k - 1, by omega⟩
      rw [h0 _ (l.take k ++ more) rfl]
      exact ⟨rfl, by simpa using hk'⟩

theorem endLoop_seen (final : Final) (finalPos : Pos) (l : List (XEvent × Pos)) (n : Nat) (r : Except Error Unit) (k : Nat) (h : endLoop final finalPos l = (n, r))
    (hn : n ≤ k) (hk : k ≤ l.length) : endLoop fi fp (l.take k ++ more) = (n, r) := by
  induction l generalizing n k with
  | nil =>
    have : n = 1 := by
      cases final with
      | eof => cases h; rfl
      | err m p => cases h; rfl
    simp at hk
    omega
  | cons x l ih =>
    obtain ⟨e, pos⟩ := x
    have hk' : k ≤ l.length + 1 := hk
    have more' : ∀ q, endLoop final finalPos l = q → (q.1 + 1, q.2) = (n, r) → 1 ≤ k ∧
        ((endLoop fi fp (l.take (k - 1) ++ more)).1 + 1, (endLoop fi fp (l.take (k - 1) ++ more)).2) = (n, r) := by
      intro q hq h
      obtain ⟨m, q⟩ := q
      cases h
      rw [ih m (k - 1) hq (by omega) (by omega)]
      exact ⟨by omega, rfl⟩
    have stop : (1, Except.error { kind := .msg .expectedEndDocument, stack := [], pos }) = (n, r) → 1 ≤ k := by
      intro h; cases h; exact hn
    cases e with
    | misc m =>
      cases m with
      | comment c =>
        obtain ⟨h1, h2⟩ := more' _ rfl h
        obtain ⟨k, rfl⟩ : ∃ k', k = k' + 1 := ⟨k - 1, by omega⟩
        exact h2
      | pi c d =>
        obtain ⟨h1, h2⟩ := more' _ rfl h
        obtain ⟨k, rfl⟩ : ∃ k', k = k' + 1 := ⟨k - 1, by omega⟩
        exact h2
      | whitespace c =>
        have h1 := stop h
        obtain ⟨k, rfl⟩ : ∃ k', k = k' + 1 := ⟨k - 1, by omega⟩
        exact h
    | _ =>
      have h1 := stop h
      obtain ⟨k, rfl⟩ : ∃ k', k = k' + 1 := ⟨k - 1, by omega⟩
      exact h

theorem endDoc_seen (dbg : Bool) (s : RState) (n : Nat) (r : Except Error Unit) (k : Nat) (h : endDoc dbg s = (n, .ok r)) (hn : n ≤ k)
    (hk : k ≤ s.inner.items.length) : endDoc dbg (alt more fi fp k s) = (n, .ok r) := by
  simp only [endDoc] at h ⊢
  revert h
  generalize hz : returnToDepth dbg 0 s = z
  obtain ⟨m, _ | ⟨_ | _, s1⟩⟩ := z
  · intro h; cases h
  · intro h
    cases h
    rw [(returnToDepth_seen _ _ _ _ _ _ _ hz hn hk).1]
  · dsimp only
    generalize hy : endLoop s1.inner.final s1.inner.finalPos s1.inner.items = y
    obtain ⟨j, y⟩ := y
    intro h
    cases h
    obtain ⟨h1, h2⟩ := returnToDepth_seen (more := more) (fi := fi) (fp := fp) _ _ _ _ _ _ k hz (by omega) hk
    rw [h1]
    dsimp only
    rw [show endLoop (alt more fi fp (k - m) s1).inner.final (alt more fi fp (k - m) s1).inner.finalPos (alt more fi fp (k - m) s1).inner.items = (j, _) from
      endLoop_seen _ _ _ _ _ (k - m) hy (by omega) h2]

theorem read_seen {σ α : Type} (dbg : Bool) (V : Visitor σ) (C : Effort σ) (D : Deser σ α) (i i' : Input) (r : Except Error α)
    (h : (read dbg V C D i).2 = .ok r) (hn : (read dbg V C D i).1.fetched ≤ i.items.length)
    (hi : i'.items.take (read dbg V C D i).1.fetched = i.items.take (read dbg V C D i).1.fetched) : read dbg V C D i' = read dbg V C D i := by
  generalize hk : (read dbg V C D i).1.fetched = k at hn hi
  have hi' : i'.start = alt (i'.items.drop k) i'.final i'.finalPos k i.start := by
    simp only [Input.start, alt, ← hi, List.take_append_drop]
  have hk0 : k ≤ i.start.inner.items.length := hn
  generalize hR : read dbg V C D i = R at h hk
  obtain ⟨t, R⟩ := R
  cases h
  dsimp only at hk
  simp only [read] at hR ⊢
  rw [hi']
  revert hR
  generalize hq : root dbg i.start = q
  obtain ⟨n, _ | ⟨_ | er, s1⟩⟩ := q
  · intro h; cases h
  · intro h
    cases h
    simp only [Tally.fetches] at hk
    rw [(root_seen _ _ _ _ _ k hq (by omega) hk0).1]
  · dsimp only
    have a := fun hn => root_seen (more := i'.items.drop k) (fi := i'.final) (fp := i'.finalPos) _ _ _ _ _ k hq hn hk0
    have len : ∀ j, j ≤ s1.inner.items.length → j < (alt (i'.items.drop k) i'.final i'.finalPos j s1).inner.items.length + 1 := by
      intro j hj
      simp only [alt, List.length_append, List.length_take]
      omega
    generalize hz : runDeser dbg V C D (s1.inner.items.length + 1) er s1 = z
    obtain ⟨t1, _ | ⟨_ | x, s2⟩⟩ := z
    · intro h; cases h
    · intro h
      cases h
      simp only [Tally.fetches, Tally.add] at hk
      obtain ⟨h1, h2⟩ := a (by omega)
      obtain ⟨h3, h4⟩ := runDeser_seen (more := i'.items.drop k) (fi := i'.final) (fp := i'.finalPos) _ _ _ _ _ _ _ _ _ _ _ (k - n) hz (by omega) h2 (len _ h2)
      rw [h1]
      dsimp only
      rw [h3]
      rfl
    · dsimp only
      generalize hy : endDoc dbg s2 = y
      obtain ⟨m, _ | y⟩ := y
      · intro h; cases h
      · intro h
        have hk' : n + t1.fetched + m = k := by
          obtain _ | _ := y
          · cases h; exact hk
          · cases h; exact hk
        obtain ⟨h1, h2⟩ := a (by omega)
        obtain ⟨h3, h4⟩ := runDeser_seen (more := i'.items.drop k) (fi := i'.final) (fp := i'.finalPos) _ _ _ _ _ _ _ _ _ _ _ (k - n) hz (by omega) h2 (len _ h2)
        rw [h1]
        dsimp only
        rw [h3]
        dsimp only
        rw [endDoc_seen _ _ _ _ _ hy (by omega) h4]
        exact h

end SX.Cost
