import Verif.Proof.Space

/- What visitors find that keep count themselves is no more than the peak. -/
namespace SX.Space
open Spec.Space

variable {σ β : Type}

/-- Reading with and without keeping count. -/
structure Least (m : σ → Nat) (t : Counting σ) (q : Nat × Except Fault (σ × β)) (q' : Except Fault (Counting σ × β)) : Prop where
  start : m t.v ≤ q.1
  fault : ∀ f, q.2 = .error f → q' = .error f
  fine : ∀ v r, q.2 = .ok (v, r) → ∃ t', q' = .ok (t', r) ∧ t'.v = v ∧ t'.above = t.above ∧ t'.most ≤ max t.most (t.above + q.1) ∧ m v ≤ q.1

theorem Least.ofFault {m : σ → Nat} {t : Counting σ} {n : Nat} {f : Fault} (h : m t.v ≤ n) : Least (β := β) m t (n, .error f) (.error f) :=
  ⟨h, (by intro f h; cases h; rfl), by intro v r h; cases h⟩

theorem Least.ofOk {m : σ → Nat} {t t' : Counting σ} {n : Nat} {v : σ} {r : β} (h : m t.v ≤ n) (h1 : t'.v = v) (h2 : t'.above = t.above)
    (h3 : t'.most ≤ max t.most (t.above + n)) (h4 : m v ≤ n) : Least m t (n, .ok (v, r)) (.ok (t', r)) :=
  ⟨h, (by intro f h; cases h), by intro v r h; cases h; exact ⟨t', rfl, h1, h2, h3, h4⟩⟩

/-- Going on from a later state. -/
theorem Least.later {m : σ → Nat} {t t1 : Counting σ} {n n' : Nat} {x : Except Fault (σ × β)} {q' : Except Fault (Counting σ × β)} (h : Least m t1 (n', x) q')
    (h0 : m t.v ≤ n) (h1 : t1.above = t.above) (h2 : t1.most ≤ max t.most (t.above + max n n')) : Least m t (max n n', x) q' := by
  refine ⟨by dsimp only; omega, fun f hf => h.fault f hf, ?_⟩
  intro v r hv
  obtain ⟨t', a, b, c, d, e⟩ := h.fine v r hv
  refine ⟨t', a, b, c.trans h1, ?_, ?_⟩
  · dsimp only at d ⊢; omega
  · dsimp only at e ⊢; omega

theorem now_most (m : σ → Nat) (t : Counting σ) (v : σ) : (t.now m v).most = max t.most (t.above + m v) := rfl

theorem visitAttrs_least (V : Visitor σ) (m : σ → Nat) (stack : List StackElem) (pos : Pos) (l : List XAttr) (t : Counting σ) :
    Least m t (visitAttrs V m stack pos l t.v) (SX.visitAttrs (counting V m) stack pos l t) := by
  induction l generalizing t with
  | nil => exact .ofOk (Nat.le_refl _) rfl rfl (by omega) (Nat.le_refl _)
  | cons a l ih =>
    simp only [visitAttrs, SX.visitAttrs, counting]
    cases V.onAttr t.v a.name.expanded a.value with
    | error f => exact .ofFault (Nat.le_refl _)
    | ok x =>
      obtain ⟨v1, _ | _⟩ := x
      · exact .ofOk (by omega) rfl rfl (by rw [now_most]; dsimp only; omega) (by omega)
      · have h := ih (t.now m v1)
        have h0 := h.start
        exact h.later (Nat.le_refl _) rfl (by rw [now_most]; rw [show (t.now m v1).v = v1 from rfl] at h0 ⊢; omega)

theorem readString_least (dbg : Bool) (er : ElemReader) (fuel : Nat) (out : String) (s : RState) :
    out.utf8ByteSize ≤ (readString dbg er fuel out s).1 ∧ ∀ x s', (readString dbg er fuel out s).2 = .ok (x, s') → textBytes x ≤ (readString dbg er fuel out s).1 := by
  induction fuel generalizing out s with
  | zero => exact ⟨Nat.le_refl _, by intro x s' h; cases h⟩
  | succ fuel ih =>
    simp only [readString]
    split
    · exact ⟨Nat.le_refl _, by intro x s' h; cases h⟩
    · generalize next dbg s = q
      obtain _ | ⟨_ | ⟨e, pos⟩, s1⟩ := q
      · exact ⟨Nat.le_refl _, by intro x s' h; cases h⟩
      · exact ⟨Nat.le_refl _, by intro x s' h; cases h; exact Nat.zero_le _⟩
      · cases e with
        | start as ns =>
          dsimp only
          cases s1.stack.getLast? with
          | none => exact ⟨Nat.le_refl _, by intro x s' h; cases h⟩
          | some c => exact ⟨Nat.le_refl _, by intro x s' h; cases h; exact Nat.zero_le _⟩
        | end_ name => exact ⟨Nat.le_refl _, by intro x s' h; cases h; exact Nat.le_refl _⟩
        | chars str =>
          obtain ⟨h1, h2⟩ := ih (if out.isEmpty then str else out ++ str) s1
          dsimp only
          refine ⟨by omega, ?_⟩
          intro x s' h
          have := h2 x s' h
          omega

theorem readLoop_least (dbg : Bool) (V : Visitor σ) (m : σ → Nat) (fuel : Nat) (er : ElemReader) (t : Counting σ) (s : RState) :
    Least m t (readLoop dbg V m fuel er t.v s) (SX.readLoop dbg (counting V m) fuel er t s) := by
  induction fuel generalizing er t s with
  | zero => exact .ofFault (Nat.le_refl _)
  | succ fuel ih =>
    simp only [readLoop, SX.readLoop]
    split
    · exact .ofFault (Nat.le_refl _)
    · generalize next dbg s = q
      obtain _ | ⟨_ | ⟨e, pos⟩, s1⟩ := q
      · exact .ofFault (Nat.le_refl _)
      · exact .ofOk (Nat.le_refl _) rfl rfl (by omega) (Nat.le_refl _)
      · cases e with
        | end_ name => exact .ofOk (Nat.le_refl _) rfl rfl (by omega) (Nat.le_refl _)
        | chars str =>
          simp only [counting]
          cases V.onChars t.v str pos with
          | error f => exact .ofFault (Nat.le_refl _)
          | ok x =>
            obtain ⟨v1, _ | _⟩ := x
            · exact .ofOk (by omega) rfl rfl (by rw [now_most]; dsimp only; omega) (by omega)
            · have h := ih er (t.now m v1) s1
              have h0 := h.start
              exact h.later (Nat.le_refl _) rfl (by rw [now_most]; rw [show (t.now m v1).v = v1 from rfl] at h0 ⊢; omega)
        | start as ns =>
          dsimp only
          cases s1.stack[er.stackPos + 1]? with
          | none => exact .ofFault (Nat.le_refl _)
          | some elem =>
            dsimp only
            have rest : ∀ (n : Nat) (x : Except Fault (σ × Except VErr Unit)) (most : Nat) (s' : RState), m t.v ≤ n → most ≤ max t.most (t.above + n) →
                Least m t (after dbg V m fuel er pos (n, .ok (x, s')))
                  (match (x.map fun (v, r) => (({ t with most } : Counting σ).now m v, r) : Except Fault (Counting σ × Except VErr Unit)) with
                  | .error f => .error f
                  | .ok (v, .error e) => .ok (v, .error (.propagate (e.toError s'.stack pos)), s')
                  | .ok (v, .ok ()) =>
                    match SX.returnToDepth dbg (er.stackPos + 1) s' with
                    | .error f => .error f
                    | .ok (.error e, s) => .ok (v, .error (.propagate e), s)
                    | .ok (.ok (), s) => SX.readLoop dbg (counting V m) fuel er v s) := by
              intro n x most s' hn hm
              obtain _ | ⟨v', _ | _⟩ := x
              · exact .ofFault hn
              · exact .ofOk (by omega) rfl rfl (by rw [now_most]; dsimp only; omega) (by omega)
              · simp only [after, Except.map]
                generalize SX.returnToDepth dbg (er.stackPos + 1) s' = q
                obtain _ | ⟨_ | _, s''⟩ := q
                · exact .ofFault (by omega)
                · exact .ofOk (by omega) rfl rfl (by rw [now_most]; dsimp only; omega) (by omega)
                · have h := ih er (({ t with most } : Counting σ).now m v') s''
                  have h0 := h.start
                  rw [show (({ t with most } : Counting σ).now m v').v = v' from rfl] at h0
                  exact h.later hn rfl (by rw [now_most]; rw [show (({ t with most } : Counting σ).now m v').v = v' from rfl]; dsimp only; omega)
            simp only [counting]
            cases V.onElem t.v { name := elem.name, ns, depth := er.stackPos + 1 + 1 } with
            | done x =>
              have := rest (m t.v) x t.most s1 (Nat.le_refl _) (by omega)
              revert this
              obtain _ | ⟨v', _ | _⟩ := x <;> exact id
            | readString k =>
              dsimp only
              obtain ⟨h1, h2⟩ := readString_least dbg { ns, attrs := as, stackPos := er.stackPos + 1 } fuel "" s1
              rw [← readString_value]
              revert h1 h2
              generalize readString dbg _ fuel "" s1 = q
              obtain ⟨n, _ | ⟨x, s'⟩⟩ := q
              · intro h1 h2; exact .ofFault (by omega)
              · intro h1 h2
                have h3 := h2 _ _ rfl
                dsimp only at h3
                have := rest (m t.v + n) (k x) (max t.most (t.above + m t.v + textBytes x)) s' (by omega) (by omega)
                revert this
                dsimp only
                obtain _ | ⟨v', _ | _⟩ := k x <;> exact id
            | readTo sub k =>
              dsimp only
              have h := visitAttrs_least V m s1.stack elem.pos as { v := sub, above := t.above + m t.v, most := max t.most (t.above + m t.v + m sub) }
              simp only [counting] at h
              revert h
              generalize visitAttrs V m s1.stack elem.pos as sub = q
              obtain ⟨n, _ | ⟨sub', r⟩⟩ := q
              · intro h
                rw [h.fault _ rfl]
                exact .ofFault (by omega)
              · intro h
                obtain ⟨t1, e1, rfl, e3, e4, e5⟩ := h.fine _ _ rfl
                have h0 := h.start
                rw [e1]
                dsimp only at e3 e4 e5 h0
                cases r with
                | error e =>
                  have := rest (m t.v + n) (k t1.v (.error e)) (max t.most t1.most) s1 (by omega) (by omega)
                  revert this
                  dsimp only
                  obtain _ | ⟨v', _ | _⟩ := k t1.v (.error e) <;> exact id
                | ok u =>
                  dsimp only
                  have h' := ih { ns, attrs := as, stackPos := er.stackPos + 1 } t1 s1
                  simp only [counting] at h'
                  revert h'
                  generalize readLoop dbg V m fuel _ t1.v s1 = q
                  obtain ⟨n', _ | ⟨sub'', x, s'⟩⟩ := q
                  · intro h'
                    rw [h'.fault _ rfl]
                    exact .ofFault (by omega)
                  · intro h'
                    obtain ⟨t2, g1, rfl, g3, g4, g5⟩ := h'.fine _ _ rfl
                    rw [g1]
                    dsimp only at g3 g4 g5
                    have := rest (m t.v + max n n') (k t2.v x) (max t.most t2.most) s' (by omega) (by omega)
                    revert this
                    dsimp only
                    obtain _ | ⟨v', _ | _⟩ := k t2.v x <;> exact id

theorem readTo_least (dbg : Bool) (V : Visitor σ) (m : σ → Nat) (fuel : Nat) (er : ElemReader) (t : Counting σ) (s : RState) :
    Least m t (readTo dbg V m fuel er t.v s) (SX.readTo dbg (counting V m) fuel er t s) := by
  simp only [readTo, SX.readTo]
  cases s.stack[er.stackPos]? with
  | none => exact .ofFault (Nat.le_refl _)
  | some elem =>
    dsimp only
    have h := visitAttrs_least V m s.stack elem.pos er.attrs t
    revert h
    generalize visitAttrs V m s.stack elem.pos er.attrs t.v = q
    obtain ⟨n, _ | ⟨sub', r⟩⟩ := q
    · intro h
      rw [h.fault _ rfl]
      exact .ofFault h.start
    · intro h
      obtain ⟨t1, e1, rfl, e3, e4, e5⟩ := h.fine _ _ rfl
      have h0 := h.start
      rw [e1]
      dsimp only at e4 e5 h0
      cases r with
      | error e => exact .ofOk h0 rfl e3 e4 e5
      | ok u => exact (readLoop_least dbg V m fuel er t1 s).later h0 e3 (by omega)

theorem runDeser_least {α : Type} (dbg : Bool) (V : Visitor σ) (m : σ → Nat) (D : Deser σ α) (a : α → Nat) (fuel : Nat) (er : ElemReader) (s : RState) (x : α) (s' : RState)
    (h : (runDeser dbg V m D fuel er s).2 = .ok (.ok x, s')) :
    ∃ n, SX.runDeser dbg (counting V m) (countingDeser D m a) fuel er s = .ok (.ok (x, n), s') ∧ n ≤ max (runDeser dbg V m D fuel er s).1 (a x) ∧ a x ≤ n := by
  simp only [runDeser, SX.runDeser, countingDeser] at h ⊢
  revert h
  cases s.stack[er.stackPos]? with
  | none => intro h; cases h
  | some elem =>
    dsimp only
    cases D { name := elem.name, ns := er.ns, depth := er.stackPos + 1 } with
    | done r =>
      cases r with
      | error f => intro h; cases h
      | ok r => intro h; cases h; exact ⟨_, rfl, by omega, Nat.le_refl _⟩
    | readString k =>
      dsimp only
      obtain ⟨h1, h2⟩ := readString_least dbg er fuel "" s
      rw [← readString_value]
      revert h1 h2
      generalize readString dbg er fuel "" s = q
      obtain ⟨n, _ | ⟨y, s1⟩⟩ := q
      · intro h1 h2 h; cases h
      · intro h1 h2
        have h3 := h2 _ _ rfl
        dsimp only at h3 ⊢
        cases k y with
        | error f => intro h; cases h
        | ok r => intro h; cases h; exact ⟨_, rfl, by dsimp only; omega, by omega⟩
    | readTo sub k =>
      dsimp only
      have h := readTo_least dbg V m fuel er { v := sub, above := 0, most := m sub } s
      revert h
      dsimp only
      generalize readTo dbg V m fuel er sub s = q
      obtain ⟨n, _ | ⟨sub', y, s1⟩⟩ := q
      · intro h0 h; cases h
      · intro h0
        obtain ⟨t1, e1, rfl, e3, e4, e5⟩ := h0.fine _ _ rfl
        have h1 := h0.start
        rw [e1]
        dsimp only at e4 h1 ⊢
        cases k t1.v y with
        | error f => intro h; cases h
        | ok r => intro h; cases h; exact ⟨_, rfl, by dsimp only; omega, by omega⟩

theorem read_least {α : Type} (dbg : Bool) (V : Visitor σ) (m : σ → Nat) (D : Deser σ α) (a : α → Nat) (i : Input) (x : α)
    (h : SX.read dbg V D i = .ok (.ok x)) :
    ∃ n, SX.read dbg (counting V m) (countingDeser D m a) i = .ok (.ok (x, n)) ∧ n ≤ (read dbg V m D a i).1 := by
  rw [← read_value dbg V m D a] at h
  simp only [read, SX.read] at h ⊢
  revert h
  cases hr : root dbg i.start with
  | error f => intro h; cases h
  | ok q =>
    obtain ⟨_ | er, s⟩ := q
    · intro h; cases h
    · dsimp only
      have h1 := runDeser_least dbg V m D a (s.inner.items.length + 1) er s
      revert h1
      generalize runDeser dbg V m D _ er s = q
      obtain ⟨n, _ | ⟨_ | y, s'⟩⟩ := q
      · intro _ h; cases h
      · intro _ h; cases h
      · intro h1
        obtain ⟨n', e1, e2, _⟩ := h1 _ _ rfl
        rw [e1]
        dsimp only at e2 ⊢
        obtain _ | _ | _ := endDoc dbg s'
        · intro h; cases h
        · intro h; cases h
        · intro h; cases h; exact ⟨n', rfl, e2⟩

end SX.Space
