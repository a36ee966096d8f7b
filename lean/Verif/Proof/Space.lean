import Verif.Model.Space
import Verif.Spec.Space
import Verif.Spec.Cost

/- What is held while reading is at most what has been read. -/
namespace SX.Space
open Spec.Space

theorem visitAttrs_value {σ : Type} (V : Visitor σ) (m : σ → Nat) (stack : List StackElem) (pos : Pos) (l : List XAttr) (v : σ) :
    (visitAttrs V m stack pos l v).2 = SX.visitAttrs V stack pos l v := by
  induction l generalizing v with
  | nil => rfl
  | cons a l ih =>
    simp only [visitAttrs, SX.visitAttrs]
    split <;> rename_i h <;> simp only [h]
    exact ih _

theorem readString_value (dbg : Bool) (er : ElemReader) (fuel : Nat) (out : String) (s : RState) :
    (readString dbg er fuel out s).2 = SX.readString dbg er fuel out s := by
  induction fuel generalizing out s with
  | zero => rfl
  | succ fuel ih =>
    simp only [readString, SX.readString]
    split
    · rfl
    · generalize next dbg s = r
      obtain _ | ⟨_ | ⟨e, pos⟩, s'⟩ := r
      · rfl
      · rfl
      · cases e with
        | start as ns =>
          dsimp only
          split <;> rename_i h <;> simp only [h]
        | end_ name => rfl
        | chars str => exact ih _ _

/-- What `read_to` does after a visitor's `element`. -/
def after {σ : Type} (dbg : Bool) (V : Visitor σ) (m : σ → Nat) (fuel : Nat) (er : ElemReader) (pos : Pos)
    (q : Nat × Except Fault ((Except Fault (σ × Except VErr Unit)) × RState)) : Nat × Except Fault (σ × Except VErr ReadToOk × RState) :=
  match q with
  | (n, .error f) => (n, .error f)
  | (n, .ok (.error f, _)) => (n, .error f)
  | (n, .ok (.ok (v', .error e), s)) => (max n (m v'), .ok (v', .error (.propagate (e.toError s.stack pos)), s))
  | (n, .ok (.ok (v', .ok ()), s)) =>
    match returnToDepth dbg (er.stackPos + 1) s with
    | .error f => (max n (m v'), .error f)
    | .ok (.error e, s) => (max n (m v'), .ok (v', .error (.propagate e), s))
    | .ok (.ok (), s) =>
      match readLoop dbg V m fuel er v' s with
      | (n', r) => (max n n', r)

theorem readLoop_value {σ : Type} (dbg : Bool) (V : Visitor σ) (m : σ → Nat) (fuel : Nat) (er : ElemReader) (v : σ) (s : RState) :
    (readLoop dbg V m fuel er v s).2 = SX.readLoop dbg V fuel er v s := by
  induction fuel generalizing er v s with
  | zero => rfl
  | succ fuel ih =>
    simp only [readLoop, SX.readLoop]
    split
    · rfl
    · generalize next dbg s = r
      obtain _ | ⟨_ | ⟨e, pos⟩, s⟩ := r
      · rfl
      · rfl
      · cases e with
        | end_ name => rfl
        | chars str =>
          dsimp only
          cases V.onChars v str pos with
          | error f => rfl
          | ok x =>
            obtain ⟨v', _ | _⟩ := x
            · rfl
            · exact ih _ _ _
        | start as ns =>
          dsimp only
          cases s.stack[er.stackPos + 1]? with
          | none => rfl
          | some elem =>
            dsimp only
            have rest : ∀ (q : Nat × Except Fault ((Except Fault (σ × Except VErr Unit)) × RState)), (after dbg V m fuel er pos q).2
                = (match q.2 with
                  | .error f => .error f
                  | .ok (.error f, _) => .error f
                  | .ok (.ok (v, .error e), s) => .ok (v, .error (.propagate (e.toError s.stack pos)), s)
                  | .ok (.ok (v, .ok ()), s) =>
                    match SX.returnToDepth dbg (er.stackPos + 1) s with
                    | .error f => .error f
                    | .ok (.error e, s) => .ok (v, .error (.propagate e), s)
                    | .ok (.ok (), s) => SX.readLoop dbg V fuel er v s : Except Fault (σ × Except VErr ReadToOk × RState)) := by
              intro q
              obtain ⟨n, _ | ⟨_ | ⟨v', _ | _⟩, s'⟩⟩ := q
              · rfl
              · rfl
              · rfl
              · simp only [after]
                generalize SX.returnToDepth dbg (er.stackPos + 1) s' = q
                obtain _ | ⟨_ | _, s''⟩ := q
                · rfl
                · rfl
                · exact ih _ _ _
            cases V.onElem v { name := elem.name, ns, depth := er.stackPos + 1 + 1 } with
            | done x => exact rest (m v, .ok (x, s))
            | readString k =>
              dsimp only
              rw [← readString_value]
              generalize readString dbg _ fuel "" s = q
              obtain ⟨n, _ | ⟨x, s'⟩⟩ := q
              · rfl
              · exact rest (m v + n, .ok (k x, s'))
            | readTo sub k =>
              dsimp only
              rw [← visitAttrs_value V m]
              generalize visitAttrs V m s.stack elem.pos as sub = q
              obtain ⟨n, _ | ⟨sub', _ | _⟩⟩ := q
              · rfl
              · exact rest (m v + n, .ok (k sub' (.error _), s))
              · dsimp only
                rw [← ih]
                generalize readLoop dbg V m fuel _ sub' s = q
                obtain ⟨n', _ | ⟨sub'', x, s'⟩⟩ := q
                · rfl
                · exact rest (m v + max n n', .ok (k sub'' x, s'))

theorem readTo_value {σ : Type} (dbg : Bool) (V : Visitor σ) (m : σ → Nat) (fuel : Nat) (er : ElemReader) (v : σ) (s : RState) :
    (readTo dbg V m fuel er v s).2 = SX.readTo dbg V fuel er v s := by
  simp only [readTo, SX.readTo]
  cases s.stack[er.stackPos]? with
  | none => rfl
  | some elem =>
    dsimp only
    rw [← visitAttrs_value V m]
    generalize visitAttrs V m s.stack elem.pos er.attrs v = q
    obtain ⟨n, _ | ⟨sub', _ | _⟩⟩ := q
    · rfl
    · rfl
    · exact readLoop_value ..

theorem runDeser_value {σ α : Type} (dbg : Bool) (V : Visitor σ) (m : σ → Nat) (D : Deser σ α) (fuel : Nat) (er : ElemReader) (s : RState) :
    (runDeser dbg V m D fuel er s).2 = SX.runDeser dbg V D fuel er s := by
  simp only [runDeser, SX.runDeser]
  cases s.stack[er.stackPos]? with
  | none => rfl
  | some elem =>
    dsimp only
    cases D { name := elem.name, ns := er.ns, depth := er.stackPos + 1 } with
    | done x => cases x <;> rfl
    | readString k =>
      dsimp only
      rw [← readString_value]
      generalize readString dbg er fuel "" s = q
      obtain ⟨n, _ | ⟨x, s'⟩⟩ := q
      · rfl
      · dsimp only
        cases k x <;> rfl
    | readTo sub k =>
      dsimp only
      rw [← readTo_value dbg V m]
      generalize readTo dbg V m fuel er sub s = q
      obtain ⟨n, _ | ⟨sub', x, s'⟩⟩ := q
      · rfl
      · dsimp only
        cases k sub' x <;> rfl

theorem read_value {σ α : Type} (dbg : Bool) (V : Visitor σ) (m : σ → Nat) (D : Deser σ α) (a : α → Nat) (i : Input) :
    (read dbg V m D a i).2 = SX.read dbg V D i := by
  simp only [read, SX.read]
  generalize root dbg i.start = q
  obtain _ | ⟨_ | er, s⟩ := q
  · rfl
  · rfl
  · dsimp only
    rw [← runDeser_value dbg V m]
    generalize runDeser dbg V m D _ er s = q
    obtain ⟨n, _ | ⟨_ | x, s'⟩⟩ := q
    · rfl
    · rfl
    · dsimp only
      generalize endDoc dbg s' = q
      obtain _ | _ | _ := q <;> rfl

/-- What there is still to read: `each` for each element, and the bytes. -/
def weight (each : Nat) : List (XEvent × Pos) → Nat
  | [] => 0
  | (.startElement _ as _, _) :: l => each + attrBytes as + weight each l
  | (.characters s, _) :: l => s.utf8ByteSize + weight each l
  | (.cdata s, _) :: l => s.utf8ByteSize + weight each l
  | _ :: l => weight each l

theorem weight_eq (each : Nat) (l : List (XEvent × Pos)) : weight each l = Spec.Cost.elements l * each + bytes l := by
  induction l with
  | nil => simp [weight, Spec.Cost.elements, bytes]
  | cons x l ih =>
    obtain ⟨e, p⟩ := x
    cases e <;> simp only [weight, Spec.Cost.elements, bytes, ih, Nat.add_mul] <;> omega

/-- An event's weight. -/
def eventWeight (each : Nat) : Event → Nat
  | .start as _ => each + attrBytes as
  | .chars s => s.utf8ByteSize
  | .end_ _ => 0

/-- The weight of what `next` gives. -/
def nextWeight (each : Nat) : Except Error (Event × Pos) → Nat
  | .ok (e, _) => eventWeight each e
  | .error _ => 0

theorem nextLoop_weight (each : Nat) (dbg : Bool) (final : Final) (finalPos : Pos) (depth : Nat) (stack : List StackElem) (l : List (XEvent × Pos))
    (r : Except Error (Event × Pos)) (s' : RState) (h : nextLoop dbg final finalPos depth stack l = .ok (r, s')) :
    weight each s'.inner.items + nextWeight each r ≤ weight each l := by
  induction l with
  | nil =>
    cases final with
    | eof => cases h
    | err m p => cases h; simp [weight, nextWeight]
  | cons x l ih =>
    obtain ⟨e, pos⟩ := x
    cases e with
    | endElement name =>
      cases depth with
      | zero => cases h
      | succ d =>
        simp only [nextLoop] at h
        revert h
        split
        · intro h; cases h
        · intro h; cases h; simp [weight, nextWeight, eventWeight]
    | misc c => simp only [nextLoop, weight] at h ⊢; exact ih h
    | startDocument => simp only [nextLoop, weight] at h ⊢; exact ih h
    | _ => simp only [nextLoop] at h; cases h; simp only [weight, nextWeight, eventWeight]; omega

theorem next_weight (each : Nat) (dbg : Bool) (s : RState) (r : Except Error (Event × Pos)) (s' : RState) (h : next dbg s = .ok (r, s')) :
    weight each s'.inner.items + nextWeight each r ≤ weight each s.inner.items := by
  simp only [next] at h
  revert h
  split
  · intro h; cases h
  · intro h; exact nextLoop_weight _ _ _ _ _ _ _ _ _ h

theorem skipLoop_weight (each : Nat) (dbg : Bool) (target fuel : Nat) (s : RState) (r : Except Error Unit) (s' : RState)
    (h : skipLoop dbg target fuel s = .ok (r, s')) : weight each s'.inner.items ≤ weight each s.inner.items := by
  induction fuel generalizing s with
  | zero => cases h
  | succ fuel ih =>
    simp only [skipLoop] at h
    revert h
    split
    · generalize hq : next dbg s = q
      obtain _ | ⟨_ | x, s1⟩ := q
      · intro h; cases h
      · intro h; cases h; have := next_weight each _ _ _ _ hq; omega
      · intro h
        have := next_weight each _ _ _ _ hq
        have h2 := ih _ h
        dsimp only at this h2
        omega
    · intro h; cases h; exact Nat.le_refl _

theorem returnToDepth_weight (each : Nat) (dbg : Bool) (target : Nat) (s : RState) (r : Except Error Unit) (s' : RState)
    (h : returnToDepth dbg target s = .ok (r, s')) : weight each s'.inner.items ≤ weight each s.inner.items := by
  simp only [returnToDepth] at h
  revert h
  split
  · intro h; cases h
  · exact skipLoop_weight _ _ _ _ _ _ _

theorem visitAttrs_held {σ : Type} {V : Visitor σ} {m : σ → Nat} {each : Nat} (hV : Frugal V m each) (stack : List StackElem) (pos : Pos) (l : List XAttr) (v : σ) :
    (visitAttrs V m stack pos l v).1 ≤ m v + attrBytes l ∧ ∀ v' r, (visitAttrs V m stack pos l v).2 = .ok (v', r) → m v' ≤ m v + attrBytes l := by
  induction l generalizing v with
  | nil => exact ⟨Nat.le_refl _, by intro v' r h; cases h; exact Nat.le_refl _⟩
  | cons a l ih =>
    simp only [visitAttrs, attrBytes]
    cases h : V.onAttr v a.name.expanded a.value with
    | error f => exact ⟨by dsimp only; omega, by intro v' r h; cases h⟩
    | ok x =>
      obtain ⟨v1, _ | _⟩ := x
      · have := hV.attr _ _ _ _ _ h
        exact ⟨by dsimp only; omega, by intro v' r h; cases h; omega⟩
      · have := hV.attr _ _ _ _ _ h
        obtain ⟨h1, h2⟩ := ih v1
        refine ⟨by dsimp only; omega, ?_⟩
        intro v' r h
        have := h2 _ _ h
        omega

theorem readString_held (each : Nat) (dbg : Bool) (er : ElemReader) (fuel : Nat) (out : String) (s : RState) :
    (readString dbg er fuel out s).1 ≤ out.utf8ByteSize + weight each s.inner.items ∧
      ∀ r s', (readString dbg er fuel out s).2 = .ok (r, s') →
        weight each s'.inner.items + (match r with | .ok x => x.utf8ByteSize | .error _ => 0) ≤ out.utf8ByteSize + weight each s.inner.items := by
  induction fuel generalizing out s with
  | zero => exact ⟨by simp only [readString]; omega, by intro r s' h; cases h⟩
  | succ fuel ih =>
    simp only [readString]
    split
    · exact ⟨by dsimp only; omega, by intro r s' h; cases h⟩
    · cases hq : next dbg s with
      | error f => exact ⟨by dsimp only; omega, by intro r s' h; cases h⟩
      | ok q =>
        obtain ⟨_ | ⟨e, pos⟩, s1⟩ := q
        · have := next_weight each _ _ _ _ hq
          exact ⟨by dsimp only; omega, by intro r s' h; cases h; dsimp only at this ⊢; omega⟩
        · have hw := next_weight each _ _ _ _ hq
          cases e with
          | start as ns =>
            dsimp only
            cases s1.stack.getLast? with
            | none => exact ⟨by dsimp only; omega, by intro r s' h; cases h⟩
            | some c => exact ⟨by dsimp only; omega, by intro r s' h; cases h; dsimp only at hw ⊢; omega⟩
          | end_ name => exact ⟨by dsimp only; omega, by intro r s' h; cases h; simp only [nextWeight, eventWeight] at hw ⊢; omega⟩
          | chars str =>
            dsimp only
            have ho : (if out.isEmpty then str else out ++ str).utf8ByteSize ≤ out.utf8ByteSize + str.utf8ByteSize := by
              split
              · omega
              · simp
            simp only [nextWeight, eventWeight] at hw
            obtain ⟨h1, h2⟩ := ih (if out.isEmpty then str else out ++ str) s1
            refine ⟨by omega, ?_⟩
            intro r s' h
            have := h2 r s' h
            omega

theorem readLoop_held {σ : Type} {V : Visitor σ} {m : σ → Nat} {each : Nat} (hV : Frugal V m each) (dbg : Bool) (fuel : Nat) (er : ElemReader) (v : σ) (s : RState) :
    (readLoop dbg V m fuel er v s).1 ≤ m v + weight each s.inner.items ∧
      ∀ v' r s', (readLoop dbg V m fuel er v s).2 = .ok (v', r, s') → m v' + weight each s'.inner.items ≤ m v + weight each s.inner.items := by
  induction fuel generalizing er v s with
  | zero => exact ⟨by simp only [readLoop]; omega, by intro v' r s' h; cases h⟩
  | succ fuel ih =>
    simp only [readLoop]
    split
    · exact ⟨by dsimp only; omega, by intro v' r s' h; cases h⟩
    · cases hq : next dbg s with
      | error f => exact ⟨by dsimp only; omega, by intro v' r s' h; cases h⟩
      | ok q =>
        obtain ⟨_ | ⟨e, pos⟩, s1⟩ := q
        · have := next_weight each _ _ _ _ hq
          exact ⟨by dsimp only; omega, by intro v' r s' h; cases h; omega⟩
        · have hw := next_weight each _ _ _ _ hq
          cases e with
          | end_ name => exact ⟨by dsimp only; omega, by intro v' r s' h; cases h; omega⟩
          | chars str =>
            simp only [nextWeight, eventWeight] at hw
            dsimp only
            cases hc : V.onChars v str pos with
            | error f => exact ⟨by dsimp only; omega, by intro v' r s' h; cases h⟩
            | ok x =>
              obtain ⟨v1, _ | _⟩ := x
              · have := hV.chars _ _ _ _ _ hc
                exact ⟨by dsimp only; omega, by intro v' r s' h; cases h; omega⟩
              · have := hV.chars _ _ _ _ _ hc
                obtain ⟨h1, h2⟩ := ih er v1 s1
                refine ⟨by dsimp only; omega, ?_⟩
                intro v' r s' h
                have := h2 _ _ _ h
                omega
          | start as ns =>
            simp only [nextWeight, eventWeight] at hw
            dsimp only
            cases s1.stack[er.stackPos + 1]? with
            | none => exact ⟨by dsimp only; omega, by intro v' r s' h; cases h⟩
            | some elem =>
              dsimp only
              have rest : ∀ (q : Nat × Except Fault ((Except Fault (σ × Except VErr Unit)) × RState)),
                  q.1 ≤ m v + weight each s.inner.items →
                  (∀ v' r s', q.2 = .ok (.ok (v', r), s') → m v' + weight each s'.inner.items ≤ m v + weight each s.inner.items) →
                  (after dbg V m fuel er pos q).1 ≤ m v + weight each s.inner.items ∧
                    ∀ v' r s', (after dbg V m fuel er pos q).2 = .ok (v', r, s') → m v' + weight each s'.inner.items ≤ m v + weight each s.inner.items := by
                intro q h1 h2
                obtain ⟨n, _ | ⟨_ | ⟨v', _ | _⟩, s'⟩⟩ := q
                · exact ⟨h1, by intro v' r s' h; cases h⟩
                · exact ⟨h1, by intro v' r s' h; cases h⟩
                · have := h2 _ _ _ rfl
                  dsimp only at h1
                  exact ⟨by simp only [after]; omega, by intro v' r s' h; cases h; exact this⟩
                · have h3 := h2 _ _ _ rfl
                  dsimp only at h1
                  simp only [after]
                  cases hz : returnToDepth dbg (er.stackPos + 1) s' with
                  | error f => exact ⟨by dsimp only; omega, by intro v' r s' h; cases h⟩
                  | ok z =>
                    have h4 := returnToDepth_weight each _ _ _ _ _ hz
                    obtain ⟨_ | _, s2⟩ := z
                    · exact ⟨by dsimp only; omega, by intro v' r s' h; cases h; dsimp only at h4; omega⟩
                    · dsimp only at h4 ⊢
                      obtain ⟨h5, h6⟩ := ih er v' s2
                      refine ⟨by omega, ?_⟩
                      intro v'' r s'' h
                      have := h6 _ _ _ h
                      omega
              cases ho : V.onElem v { name := elem.name, ns, depth := er.stackPos + 1 + 1 } with
              | done x =>
                refine rest (m v, .ok (x, s1)) (by dsimp only; omega) ?_
                intro v' r s' h
                cases h
                have := hV.done _ _ _ _ ho
                omega
              | readString k =>
                dsimp only
                obtain ⟨k1, k2⟩ := hV.string _ _ _ ho
                obtain ⟨h1, h2⟩ := readString_held each dbg { ns, attrs := as, stackPos := er.stackPos + 1 } fuel "" s1
                revert h1 h2
                generalize readString dbg _ fuel "" s1 = q
                obtain ⟨n, _ | ⟨x, s'⟩⟩ := q
                · intro h1 h2
                  dsimp only at h1
                  exact ⟨by simp at h1 ⊢; omega, by intro v' r s' h; cases h⟩
                · intro h1 h2
                  have h3 := h2 _ _ rfl
                  dsimp only at h1
                  refine rest (m v + n, .ok (k x, s')) (by simp at h1 ⊢; omega) ?_
                  intro v' r s'' h
                  simp only [Except.ok.injEq, Prod.mk.injEq] at h
                  obtain ⟨hk, rfl⟩ := h
                  cases x with
                  | error e => have := k1 _ _ _ hk; simp at h3; omega
                  | ok x => have := k2 _ _ _ hk; simp at h3; omega
              | readTo sub k =>
                dsimp only
                obtain ⟨k1, k2⟩ := hV.sub _ _ _ _ ho
                obtain ⟨h1, h2⟩ := visitAttrs_held hV s1.stack elem.pos as sub
                revert h1 h2
                generalize visitAttrs V m s1.stack elem.pos as sub = q
                obtain ⟨n, _ | ⟨sub', _ | _⟩⟩ := q
                · intro h1 h2
                  dsimp only at h1
                  exact ⟨by dsimp only; omega, by intro v' r s' h; cases h⟩
                · intro h1 h2
                  have h3 := h2 _ _ rfl
                  dsimp only at h1
                  refine rest (m v + n, .ok (k sub' (.error _), s1)) (by dsimp only; omega) ?_
                  intro v' r s'' h
                  simp only [Except.ok.injEq, Prod.mk.injEq] at h
                  obtain ⟨hk, rfl⟩ := h
                  have := k2 _ _ _ _ hk
                  omega
                · intro h1 h2
                  have h3 := h2 _ _ rfl
                  dsimp only at h1 ⊢
                  obtain ⟨h4, h5⟩ := ih { ns, attrs := as, stackPos := er.stackPos + 1 } sub' s1
                  revert h4 h5
                  generalize readLoop dbg V m fuel _ sub' s1 = q
                  obtain ⟨n', _ | ⟨sub'', x, s'⟩⟩ := q
                  · intro h4 h5
                    dsimp only at h4
                    exact ⟨by dsimp only; omega, by intro v' r s' h; cases h⟩
                  · intro h4 h5
                    have h6 := h5 _ _ _ rfl
                    dsimp only at h4
                    refine rest (m v + max n n', .ok (k sub'' x, s')) (by dsimp only; omega) ?_
                    intro v' r s'' h
                    simp only [Except.ok.injEq, Prod.mk.injEq] at h
                    obtain ⟨hk, rfl⟩ := h
                    have := k2 _ _ _ _ hk
                    omega

theorem readTo_held {σ : Type} {V : Visitor σ} {m : σ → Nat} {each : Nat} (hV : Frugal V m each) (dbg : Bool) (fuel : Nat) (er : ElemReader) (v : σ) (s : RState) :
    (readTo dbg V m fuel er v s).1 ≤ m v + attrBytes er.attrs + weight each s.inner.items ∧
      ∀ v' r s', (readTo dbg V m fuel er v s).2 = .ok (v', r, s') → m v' + weight each s'.inner.items ≤ m v + attrBytes er.attrs + weight each s.inner.items := by
  simp only [readTo]
  cases s.stack[er.stackPos]? with
  | none => exact ⟨by dsimp only; omega, by intro v' r s' h; cases h⟩
  | some elem =>
    dsimp only
    obtain ⟨h1, h2⟩ := visitAttrs_held hV s.stack elem.pos er.attrs v
    revert h1 h2
    generalize visitAttrs V m s.stack elem.pos er.attrs v = q
    obtain ⟨n, _ | ⟨v1, _ | _⟩⟩ := q
    · intro h1 h2
      dsimp only at h1
      exact ⟨by dsimp only; omega, by intro v' r s' h; cases h⟩
    · intro h1 h2
      have h3 := h2 _ _ rfl
      dsimp only at h1
      exact ⟨by dsimp only; omega, by intro v' r s' h; cases h; omega⟩
    · intro h1 h2
      have h3 := h2 _ _ rfl
      obtain ⟨h4, h5⟩ := readLoop_held hV dbg fuel er v1 s
      dsimp only at h1 ⊢
      refine ⟨by omega, ?_⟩
      intro v' r s' h
      have := h5 _ _ _ h
      omega

theorem runDeser_held {σ α : Type} {V : Visitor σ} {m : σ → Nat} {D : Deser σ α} {a : α → Nat} {each : Nat} (hV : Frugal V m each) (hD : FrugalDeser D m a each)
    (dbg : Bool) (fuel : Nat) (er : ElemReader) (s : RState) :
    (runDeser dbg V m D fuel er s).1 ≤ each + attrBytes er.attrs + weight each s.inner.items ∧
      ∀ x s', (runDeser dbg V m D fuel er s).2 = .ok (.ok x, s') → a x + weight each s'.inner.items ≤ each + attrBytes er.attrs + weight each s.inner.items := by
  simp only [runDeser]
  cases s.stack[er.stackPos]? with
  | none => exact ⟨by dsimp only; omega, by intro x s' h; cases h⟩
  | some elem =>
    dsimp only
    cases ho : D { name := elem.name, ns := er.ns, depth := er.stackPos + 1 } with
    | done r =>
      cases r with
      | error f => exact ⟨by dsimp only; omega, by intro x s' h; cases h⟩
      | ok r =>
        refine ⟨by dsimp only; omega, ?_⟩
        intro x s' h
        cases h
        have := hD.done _ _ ho
        omega
    | readString k =>
      dsimp only
      obtain ⟨k1, k2⟩ := hD.string _ _ ho
      obtain ⟨h1, h2⟩ := readString_held each dbg er fuel "" s
      revert h1 h2
      generalize readString dbg er fuel "" s = q
      obtain ⟨n, _ | ⟨x, s'⟩⟩ := q
      · intro h1 h2
        dsimp only at h1
        exact ⟨by simp at h1 ⊢; omega, by intro v' s' h; cases h⟩
      · intro h1 h2
        have h3 := h2 _ _ rfl
        dsimp only at h1 ⊢
        cases hk : k x with
        | error f => exact ⟨by simp at h1 ⊢; omega, by intro v' s' h; cases h⟩
        | ok r =>
          refine ⟨by simp at h1 ⊢; omega, ?_⟩
          intro y s' h
          cases h
          cases x with
          | error e => have := k1 _ _ hk; simp at h3; omega
          | ok x => have := k2 _ _ hk; simp at h3; omega
    | readTo sub k =>
      dsimp only
      obtain ⟨k1, k2⟩ := hD.sub _ _ _ ho
      obtain ⟨h1, h2⟩ := readTo_held hV dbg fuel er sub s
      revert h1 h2
      generalize readTo dbg V m fuel er sub s = q
      obtain ⟨n, _ | ⟨sub', x, s'⟩⟩ := q
      · intro h1 h2
        dsimp only at h1
        exact ⟨by dsimp only; omega, by intro v' s' h; cases h⟩
      · intro h1 h2
        have h3 := h2 _ _ _ rfl
        dsimp only at h1 ⊢
        cases hk : k sub' x with
        | error f => exact ⟨by dsimp only; omega, by intro v' s' h; cases h⟩
        | ok r =>
          refine ⟨by dsimp only; omega, ?_⟩
          intro y s' h
          cases h
          have := k2 _ _ _ hk
          omega

theorem root_weight (each : Nat) (dbg : Bool) (s : RState) (er : ElemReader) (s' : RState) (h : root dbg s = .ok (.ok er, s')) :
    each + attrBytes er.attrs + weight each s'.inner.items ≤ weight each s.inner.items := by
  simp only [root] at h
  revert h
  split
  · split <;> (intro h; cases h)
  · rename_i pos rest hi
    generalize hq : next dbg _ = q
    obtain _ | ⟨_ | ⟨e, p⟩, s1⟩ := q
    · intro h; cases h
    · intro h; cases h
    · have := next_weight each _ _ _ _ hq
      cases e with
      | start as ns =>
        intro h
        cases h
        rw [hi]
        simp only [nextWeight, eventWeight, weight] at this ⊢
        omega
      | _ => intro h; cases h
  · intro h; cases h

theorem read_held {σ α : Type} {V : Visitor σ} {m : σ → Nat} {D : Deser σ α} {a : α → Nat} {each : Nat} (hV : Frugal V m each) (hD : FrugalDeser D m a each)
    (dbg : Bool) (i : Input) :
    (read dbg V m D a i).1 ≤ weight each i.items ∧ ∀ x, (read dbg V m D a i).2 = .ok (.ok x) → a x ≤ weight each i.items := by
  simp only [read]
  cases hr : root dbg i.start with
  | error f => exact ⟨by dsimp only; omega, by intro x h; cases h⟩
  | ok q =>
    obtain ⟨_ | er, s⟩ := q
    · exact ⟨by dsimp only; omega, by intro x h; cases h⟩
    · have h0 := root_weight each _ _ _ _ hr
      rw [show i.start.inner.items = i.items from rfl] at h0
      dsimp only
      obtain ⟨h1, h2⟩ := runDeser_held hV hD dbg (s.inner.items.length + 1) er s
      revert h1 h2
      generalize runDeser dbg V m D _ er s = q
      obtain ⟨n, _ | ⟨_ | x, s'⟩⟩ := q
      · intro h1 h2
        dsimp only at h1
        exact ⟨by dsimp only; omega, by intro x h; cases h⟩
      · intro h1 h2
        dsimp only at h1
        exact ⟨by dsimp only; omega, by intro x h; cases h⟩
      · intro h1 h2
        have h3 := h2 _ _ rfl
        dsimp only at h1 ⊢
        cases endDoc dbg s' with
        | error f => exact ⟨by dsimp only; omega, by intro x h; cases h⟩
        | ok r =>
          cases r with
          | error e => exact ⟨by dsimp only; omega, by intro x h; cases h⟩
          | ok u => exact ⟨by dsimp only; omega, by intro x h; cases h; omega⟩

end SX.Space
