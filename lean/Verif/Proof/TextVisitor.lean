import Verif.Spec.TextVisitor
import Verif.Proof.Reader

/- Reading text by a visitor. -/
namespace SX.TextVisitor
open Spec.TextVisitor

variable {σ α : Type}

/-- The reader is at an element at this place of the stack. -/
def AtElem (s : RState) (n : Nat) : Prop := s.depth = n + 1 ∧ s.stack.length = n + 1

/-- The reader is at or below that place. -/
def Below (s : RState) (n : Nat) : Prop := n ≤ s.depth ∧ s.depth ≤ s.stack.length

/-- What `next` gives and where it leads. -/
structure NextLen (s : RState) (r : Except Error (Event × Pos)) (s' : RState) : Prop where
  error : ∀ e, r = .error e → (∃ m, e.kind = .xml m) ∧ s'.depth = s.depth ∧ s'.stack = s.stack
  chars : ∀ t p, r = .ok (.chars t, p) → s'.depth = s.depth ∧ s'.stack = s.stack
  stop : ∀ n p, r = .ok (.end_ n, p) → s'.depth + 1 = s.depth ∧ s'.stack = s.stack
  start : ∀ as ns p, r = .ok (.start as ns, p) → s'.depth = s.depth + 1 ∧ ∃ n, s'.stack = s.stack ++ [{ name := n, pos := p }]

theorem nextLoop_len (dbg : Bool) (final : Final) (finalPos : Pos) (s : RState) (l : List (XEvent × Pos)) (r : Except Error (Event × Pos)) (s' : RState)
    (h : nextLoop dbg final finalPos s.depth s.stack l = .ok (r, s')) : NextLen s r s' := by
  induction l with
  | nil =>
    cases final with
    | eof => cases h
    | err m p => cases h; exact ⟨(by intro e h; cases h; exact ⟨⟨_, rfl⟩, rfl, rfl⟩), (by intro _ _ h; cases h), (by intro _ _ h; cases h), by intro _ _ _ h; cases h⟩
  | cons x l ih =>
    obtain ⟨e, pos⟩ := x
    cases e with
    | startElement n as ns =>
      cases h
      exact ⟨(by intro _ h; cases h), (by intro _ _ h; cases h), (by intro _ _ h; cases h), by intro _ _ _ h; cases h; exact ⟨rfl, _, rfl⟩⟩
    | endElement name =>
      simp only [nextLoop] at h
      cases hd : s.depth with
      | zero => rw [hd] at h; cases h
      | succ d =>
        rw [hd] at h
        revert h
        dsimp only
        split
        · intro h; cases h
        · intro h; cases h
          exact ⟨(by intro _ h; cases h), (by intro _ _ h; cases h), (by intro _ _ h; cases h; exact ⟨by rw [hd], rfl⟩), by intro _ _ _ h; cases h⟩
    | misc c => simp only [nextLoop] at h; exact ih h
    | startDocument => simp only [nextLoop] at h; exact ih h
    | characters t => cases h; exact ⟨(by intro _ h; cases h), (by intro _ _ h; cases h; exact ⟨rfl, rfl⟩), (by intro _ _ h; cases h), by intro _ _ _ h; cases h⟩
    | cdata t => cases h; exact ⟨(by intro _ h; cases h), (by intro _ _ h; cases h; exact ⟨rfl, rfl⟩), (by intro _ _ h; cases h), by intro _ _ _ h; cases h⟩

theorem next_len (dbg : Bool) (s : RState) (r : Except Error (Event × Pos)) (s' : RState) (h : next dbg s = .ok (r, s')) : NextLen s r s' := by
  simp only [next] at h
  revert h
  split
  · intro h; cases h
  · exact nextLoop_len _ _ _ _ _ _ _

theorem skipLoop_len (dbg : Bool) (target fuel : Nat) (s : RState) (hs : Below s target) (r : Except Error Unit) (s' : RState)
    (h : skipLoop dbg target fuel s = .ok (r, s')) : Below s' target ∧ (r = .ok () → s'.depth = target ∧ s'.stack.length = target) := by
  induction fuel generalizing s with
  | zero => cases h
  | succ fuel ih =>
    obtain ⟨h1, h2⟩ := hs
    simp only [skipLoop] at h
    revert h
    split
    · rename_i hd
      cases hq : next dbg s with
      | error f => intro h; cases h
      | ok q =>
        obtain ⟨_ | ⟨e, p⟩, s1⟩ := q
        · intro h
          cases h
          obtain ⟨-, a, b⟩ := (next_len _ _ _ _ hq).error _ rfl
          exact ⟨⟨by omega, by rw [b]; omega⟩, by intro h; cases h⟩
        · intro h
          refine ih _ ?_ h
          have hl := next_len _ _ _ _ hq
          cases e with
          | start as ns =>
            obtain ⟨a, n, b⟩ := hl.start _ _ _ rfl
            exact ⟨by dsimp only; omega, by dsimp only; rw [List.length_take, b]; simp; omega⟩
          | end_ name =>
            obtain ⟨a, b⟩ := hl.stop _ _ rfl
            exact ⟨by dsimp only; omega, by dsimp only; rw [List.length_take, b]; omega⟩
          | chars t =>
            obtain ⟨a, b⟩ := hl.chars _ _ rfl
            exact ⟨by dsimp only; omega, by dsimp only; rw [List.length_take, b]; omega⟩
    · intro h
      cases h
      exact ⟨⟨h1, by dsimp only; rw [List.length_take]; omega⟩, fun _ => ⟨by dsimp only; omega, by dsimp only; rw [List.length_take]; omega⟩⟩

theorem returnToDepth_len (dbg : Bool) (target : Nat) (s : RState) (hs : Below s target) (r : Except Error Unit) (s' : RState)
    (h : returnToDepth dbg target s = .ok (r, s')) : Below s' target ∧ (r = .ok () → s'.depth = target ∧ s'.stack.length = target) := by
  simp only [returnToDepth] at h
  revert h
  split
  · intro h; cases h
  · exact skipLoop_len _ _ _ _ hs _ _

/-- The visitor for text does what `read_string` does. -/
theorem text_same (dbg : Bool) (V : Visitor σ) (fuel : Nat) (er : ElemReader) (t : String) (s : RState) (hs : AtElem s er.stackPos) :
    (∀ f, readString dbg er fuel t s = .error f → readLoop dbg (withText V) fuel er (.inr t) s = .error f) ∧
      ∀ x s', readString dbg er fuel t s = .ok (x, s') → Below s' er.stackPos ∧
        ∃ w r, readLoop dbg (withText V) fuel er (.inr t) s = .ok (w, r, s') ∧ asText w r = x := by
  induction fuel generalizing t s with
  | zero => exact ⟨(by intro f h; cases h; rfl), by intro x s' h; cases h⟩
  | succ fuel ih =>
    simp only [readString, readLoop]
    obtain ⟨hd, hl⟩ := hs
    split
    · exact ⟨(by intro f h; cases h; rfl), by intro x s' h; cases h⟩
    · cases hq : next dbg s with
      | error f => exact ⟨(by intro f h; cases h; rfl), by intro x s' h; cases h⟩
      | ok q =>
        obtain ⟨_ | ⟨e, p⟩, s1⟩ := q <;> have hn := next_len _ _ _ _ hq
        · obtain ⟨⟨m, a⟩, b, c⟩ := hn.error _ rfl
          refine ⟨(by intro f h; cases h), ?_⟩
          intro x s' h
          cases h
          refine ⟨⟨by omega, by rw [c]; omega⟩, _, _, rfl, ?_⟩
          simp only [asText, inWords, a]
        · cases e with
          | start as ns =>
            obtain ⟨a, n, b⟩ := hn.start _ _ _ rfl
            have hg : s1.stack.getLast? = some { name := n, pos := p } := by rw [b]; simp
            have hi : s1.stack[er.stackPos + 1]? = some { name := n, pos := p } := by rw [b, ← hl]; simp
            simp only [hg, hi, withText]
            refine ⟨(by intro f h; cases h), ?_⟩
            intro x s' h
            cases h
            refine ⟨⟨by omega, by rw [b]; simp; omega⟩, _, _, rfl, ?_⟩
            simp only [asText, inWords, VErr.toError, hg]
          | end_ name =>
            obtain ⟨a, b⟩ := hn.stop _ _ rfl
            refine ⟨(by intro f h; cases h), ?_⟩
            intro x s' h
            cases h
            exact ⟨⟨by omega, by rw [b]; omega⟩, _, _, rfl, rfl⟩
          | chars u =>
            obtain ⟨a, b⟩ := hn.chars _ _ rfl
            have := ih (t ++ u) s1 ⟨by omega, by rw [b]; exact hl⟩
            dsimp only
            rw [isEmpty_append]
            exact this

/-- What the loop returns, with the visitor among others. -/
def lift (q : Except Fault (σ × Except VErr ReadToOk × RState)) : Except Fault ((σ ⊕ String) × Except VErr ReadToOk × RState) :=
  match q with
  | .error f => .error f
  | .ok (v, r, s) => .ok (.inl v, r, s)

theorem visitAttrs_same (V : Visitor σ) (stack : List StackElem) (pos : Pos) (l : List XAttr) (v : σ) :
    visitAttrs (withText V) stack pos l (.inl v) = old (visitAttrs V stack pos l v) := by
  induction l generalizing v with
  | nil => rfl
  | cons a l ih =>
    simp only [visitAttrs, withText]
    obtain _ | ⟨v', _ | _⟩ := V.onAttr v a.name.expanded a.value
    · rfl
    · rfl
    · exact ih v'

theorem visitAttrs_text (V : Visitor σ) (stack : List StackElem) (pos : Pos) (l : List XAttr) (t : String) :
    visitAttrs (withText V) stack pos l (.inr t) = .ok (.inr t, .ok ()) := by
  induction l with
  | nil => rfl
  | cons a l ih => exact ih

/-- What `read_to` does after a visitor's `element`. -/
def finish {σ : Type} (dbg : Bool) (V : Visitor σ) (fuel : Nat) (er : ElemReader) (p : Pos) (q : Except Fault ((Except Fault (σ × Except VErr Unit)) × RState)) :
    Except Fault (σ × Except VErr ReadToOk × RState) :=
  match q with
  | .error f => .error f
  | .ok (.error f, _) => .error f
  | .ok (.ok (v, .error e), s) => .ok (v, .error (.propagate (e.toError s.stack p)), s)
  | .ok (.ok (v, .ok ()), s) =>
    match returnToDepth dbg (er.stackPos + 1) s with
    | .error f => .error f
    | .ok (.error e, s) => .ok (v, .error (.propagate e), s)
    | .ok (.ok (), s) => readLoop dbg V fuel er v s

theorem readLoop_same (dbg : Bool) (V : Visitor σ) (fuel : Nat) (er : ElemReader) (v : σ) (s : RState) (hs : AtElem s er.stackPos) :
    readLoop dbg (withText V) fuel er (.inl v) s = lift (readLoop dbg V fuel er v s) ∧
      ∀ v' r s', readLoop dbg V fuel er v s = .ok (v', r, s') → Below s' er.stackPos := by
  induction fuel generalizing er v s with
  | zero => exact ⟨rfl, by intro v' r s' h; cases h⟩
  | succ fuel ih =>
    simp only [readLoop]
    obtain ⟨hd, hl⟩ := hs
    split
    · exact ⟨rfl, by intro v' r s' h; cases h⟩
    · cases hq : next dbg s with
      | error f => exact ⟨rfl, by intro v' r s' h; cases h⟩
      | ok q =>
        obtain ⟨_ | ⟨e, p⟩, s1⟩ := q <;> have hn := next_len _ _ _ _ hq
        · obtain ⟨-, a, b⟩ := hn.error _ rfl
          exact ⟨rfl, by intro v' r s' h; cases h; exact ⟨by omega, by rw [b]; omega⟩⟩
        · cases e with
          | end_ name =>
            obtain ⟨a, b⟩ := hn.stop _ _ rfl
            exact ⟨rfl, by intro v' r s' h; cases h; exact ⟨by omega, by rw [b]; omega⟩⟩
          | chars u =>
            obtain ⟨a, b⟩ := hn.chars _ _ rfl
            simp only [withText]
            obtain _ | ⟨v', _ | _⟩ := V.onChars v u p
            · exact ⟨rfl, by intro v' r s' h; cases h⟩
            · exact ⟨rfl, by intro v' r s' h; cases h; exact ⟨by omega, by rw [b]; omega⟩⟩
            · exact ih er v' s1 ⟨by omega, by rw [b]; exact hl⟩
          | start as ns =>
            obtain ⟨a, n, b⟩ := hn.start _ _ _ rfl
            have hi : s1.stack[er.stackPos + 1]? = some { name := n, pos := p } := by rw [b, ← hl]; simp
            have hc : AtElem s1 (er.stackPos + 1) := ⟨by omega, by rw [b]; simp; omega⟩
            simp only [hi]
            have rest : ∀ (x : Except Fault (σ × Except VErr Unit)) (s2 : RState), Below s2 (er.stackPos + 1) →
                finish dbg (withText V) fuel er p (.ok (old x, s2)) = lift (finish dbg V fuel er p (.ok (x, s2))) ∧
                  ∀ v' r s', finish dbg V fuel er p (.ok (x, s2)) = .ok (v', r, s') → Below s' er.stackPos := by
              intro x s2 hb
              obtain ⟨hb1, hb2⟩ := hb
              obtain _ | ⟨v', _ | _⟩ := x
              · exact ⟨rfl, by intro v' r s' h; cases h⟩
              · exact ⟨rfl, by intro v' r s' h; cases h; exact ⟨by omega, hb2⟩⟩
              · simp only [old, finish]
                cases hz : returnToDepth dbg (er.stackPos + 1) s2 with
                | error f => exact ⟨rfl, by intro v' r s' h; cases h⟩
                | ok z =>
                  obtain ⟨_ | _, s3⟩ := z <;> have hr := returnToDepth_len _ _ _ ⟨hb1, hb2⟩ _ _ hz
                  · obtain ⟨⟨h1, h2⟩, -⟩ := hr
                    exact ⟨rfl, by intro v' r s' h; cases h; exact ⟨by omega, h2⟩⟩
                  · exact ih er v' s3 (hr.2 rfl)
            rw [show ∀ i, (withText V).onElem (.inl v) i = replaced old (.error .panic) (V.onElem v i) from fun _ => rfl]
            cases V.onElem v { name := n, ns, depth := er.stackPos + 1 + 1 } with
            | done x => exact rest x s1 ⟨by omega, by rw [b]; simp; omega⟩
            | readString k =>
              have ht := text_same dbg V fuel { ns, attrs := as, stackPos := er.stackPos + 1 } "" s1 hc
              have hv := visitAttrs_text V s1.stack p as ""
              simp only [replaced, hv]
              revert ht
              cases readString dbg { ns, attrs := as, stackPos := er.stackPos + 1 } fuel "" s1 with
              | error f =>
                intro ht
                rw [ht.1 f rfl]
                exact ⟨rfl, by intro v' r s' h; cases h⟩
              | ok y =>
                obtain ⟨y, s2⟩ := y
                intro ht
                obtain ⟨hb, w, r, e1, e2⟩ := ht.2 y s2 rfl
                rw [e1]
                dsimp only
                rw [e2]
                exact rest (k y) s2 hb
            | readTo sub k =>
              have hv := visitAttrs_same V s1.stack p as sub
              simp only [replaced, hv]
              obtain _ | ⟨sub', _ | _⟩ := visitAttrs V s1.stack p as sub
              · exact ⟨rfl, by intro v' r s' h; cases h⟩
              · exact rest (k sub' (.error _)) s1 ⟨by omega, by rw [b]; simp; omega⟩
              · have hr := ih { ns, attrs := as, stackPos := er.stackPos + 1 } sub' s1 hc
                simp only [old]
                rw [hr.1]
                revert hr
                cases readLoop dbg V fuel { ns, attrs := as, stackPos := er.stackPos + 1 } sub' s1 with
                | error f =>
                  intro hr
                  exact ⟨rfl, by intro v' r s' h; cases h⟩
                | ok y =>
                  obtain ⟨sub2, y, s2⟩ := y
                  intro hr
                  exact rest (k sub2 y) s2 (hr.2 _ _ _ rfl)

theorem runDeser_same (dbg : Bool) (V : Visitor σ) (D : Deser σ α) (fuel : Nat) (er : ElemReader) (s : RState) (hs : AtElem s er.stackPos) :
    runDeser dbg (withText V) (deserWithText D) fuel er s = runDeser dbg V D fuel er s := by
  simp only [runDeser, deserWithText]
  cases hi : s.stack[er.stackPos]? with
  | none => rfl
  | some elem =>
    dsimp only
    cases D { name := elem.name, ns := er.ns, depth := er.stackPos + 1 } with
    | done x => rfl
    | readString k =>
      have ht := text_same dbg V fuel er "" s hs
      have hv := visitAttrs_text V s.stack elem.pos er.attrs ""
      simp only [replaced, readTo, hi, hv]
      revert ht
      cases readString dbg er fuel "" s with
      | error f => intro ht; rw [ht.1 f rfl]
      | ok y =>
        obtain ⟨y, s2⟩ := y
        intro ht
        obtain ⟨hb, w, r, e1, e2⟩ := ht.2 y s2 rfl
        rw [e1]
        dsimp only
        rw [e2]
        rfl
    | readTo sub k =>
      have hv := visitAttrs_same V s.stack elem.pos er.attrs sub
      simp only [replaced, readTo, hi, hv]
      obtain _ | ⟨sub', _ | _⟩ := visitAttrs V s.stack elem.pos er.attrs sub
      · rfl
      · rfl
      · simp only [old]
        rw [(readLoop_same dbg V fuel er sub' s hs).1]
        obtain _ | ⟨v, r, s'⟩ := readLoop dbg V fuel er sub' s
        · rfl
        · rfl

theorem read_same (dbg : Bool) (V : Visitor σ) (D : Deser σ α) (i : Input) : read dbg (withText V) (deserWithText D) i = read dbg V D i := by
  simp only [read]
  cases hr : root dbg i.start with
  | error f => rfl
  | ok q =>
    obtain ⟨_ | er, s⟩ := q
    · rfl
    · have hs : AtElem s er.stackPos := by
        simp only [root] at hr
        revert hr
        split
        · split <;> (intro h; cases h)
        · generalize hq : next dbg _ = q
          obtain _ | ⟨_ | ⟨e, p⟩, s1⟩ := q
          · intro h; cases h
          · intro h; cases h
          · cases e with
            | start as ns =>
              intro h
              cases h
              obtain ⟨a, n, b⟩ := (next_len _ _ _ _ hq).start _ _ _ rfl
              exact ⟨a, by rw [b]; rfl⟩
            | _ => intro h; cases h
        · intro h; cases h
      dsimp only
      rw [runDeser_same dbg V D _ er s hs]

end SX.TextVisitor
