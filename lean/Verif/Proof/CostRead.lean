import Verif.Spec.Cost

/- The counts for the reader. -/
namespace SX.Cost
open Spec.Cost

theorem nextLoop_value (dbg : Bool) (final : Final) (finalPos : Pos) (depth : Nat) (stack : List StackElem) (l : List (XEvent × Pos)) :
    (nextLoop dbg final finalPos depth stack l).2 = SX.nextLoop dbg final finalPos depth stack l := by
  induction l with
  | nil => cases final <;> rfl
  | cons x l ih =>
    obtain ⟨e, pos⟩ := x
    cases e with
    | endElement name =>
      cases depth with
      | zero => rfl
      | succ d =>
        simp only [nextLoop, SX.nextLoop]
        split <;> rfl
    | misc m => exact ih
    | startDocument => exact ih
    | _ => rfl

theorem next_value (dbg : Bool) (s : RState) : (next dbg s).2 = SX.next dbg s := by
  simp only [next, SX.next]
  split
  · rfl
  · exact nextLoop_value ..

theorem skipLoop_value (dbg : Bool) (target fuel : Nat) (s : RState) : (skipLoop dbg target fuel s).2 = SX.skipLoop dbg target fuel s := by
  induction fuel generalizing s with
  | zero => rfl
  | succ fuel ih =>
    simp only [skipLoop, SX.skipLoop]
    split
    · rw [← next_value]
      generalize next dbg s = r
      obtain ⟨n, _ | ⟨_ | _, s'⟩⟩ := r
      · rfl
      · rfl
      · exact ih _
    · rfl

theorem returnToDepth_value (dbg : Bool) (target : Nat) (s : RState) : (returnToDepth dbg target s).2 = SX.returnToDepth dbg target s := by
  simp only [returnToDepth, SX.returnToDepth]
  split
  · rfl
  · exact skipLoop_value ..

theorem visitAttrs_value {σ : Type} (V : Visitor σ) (C : Effort σ) (stack : List StackElem) (pos : Pos) (l : List XAttr) (v : σ) :
    (visitAttrs V C stack pos l v).2.2 = SX.visitAttrs V stack pos l v := by
  induction l generalizing v with
  | nil => rfl
  | cons a l ih =>
    simp only [visitAttrs, SX.visitAttrs]
    split <;> rename_i h <;> simp only [h]
    exact ih _

theorem readString_value (dbg : Bool) (er : ElemReader) (fuel : Nat) (out : String) (s : RState) :
    (readString dbg er fuel out s).2 = SX.readString dbg er fuel out s := by
  induction fuel generalizing out s with
  | zero => rfl
  | succ fuel ih =>
    simp only [readString, SX.readString]
    split
    · rfl
    · rw [← next_value]
      generalize next dbg s = r
      obtain ⟨n, _ | ⟨_ | ⟨e, pos⟩, s'⟩⟩ := r
      · rfl
      · rfl
      · cases e with
        | start as ns =>
          dsimp only
          split <;> rename_i h <;> simp only [h]
        | end_ name => rfl
        | chars str => exact ih _ _

theorem readLoop_value {σ : Type} (dbg : Bool) (V : Visitor σ) (C : Effort σ) (fuel : Nat) (er : ElemReader) (v : σ) (s : RState) :
    (readLoop dbg V C fuel er v s).2 = SX.readLoop dbg V fuel er v s := by
  induction fuel generalizing er v s with
  | zero => rfl
  | succ fuel ih =>
    simp only [readLoop, SX.readLoop]
    split
    · rfl
    · rw [← next_value]
      generalize next dbg s = r
      obtain ⟨n, _ | ⟨_ | ⟨e, pos⟩, s⟩⟩ := r
      · rfl
      · rfl
      · cases e with
        | end_ name => rfl
        | chars str =>
          dsimp only
          cases V.onChars v str pos with
          | error f => rfl
          | ok x =>
            obtain ⟨v', _ | _⟩ := x
            · rfl
            · exact ih _ _ _
        | start as ns =>
          dsimp only
          cases s.stack[er.stackPos + 1]? with
          | none => rfl
          | some elem =>
            dsimp only
            have rest : ∀ (t : Tally) (r : Tally × Except Fault ((Except Fault (σ × Except VErr Unit)) × RState)),
                (match r with
                  | (t', .error f) => (t.add t', .error f)
                  | (t', .ok (.error f, _)) => (t.add t', .error f)
                  | (t', .ok (.ok (v, .error e), s)) => (t.add t', .ok (v, .error (.propagate (e.toError s.stack pos)), s))
                  | (t', .ok (.ok (v, .ok ()), s)) =>
                    match returnToDepth dbg (er.stackPos + 1) s with
                    | (m, .error f) => ((t.add t').add (.fetches m), .error f)
                    | (m, .ok (.error e, s)) => ((t.add t').add (.fetches m), .ok (v, .error (.propagate e), s))
                    | (m, .ok (.ok (), s)) =>
                      match readLoop dbg V C fuel er v s with
                      | (t'', r) => (((t.add t').add (.fetches m)).add t'', r) : Tally × Except Fault (σ × Except VErr ReadToOk × RState)).2
                = (match r.2 with
                  | .error f => .error f
                  | .ok (.error f, _) => .error f
                  | .ok (.ok (v, .error e), s) => .ok (v, .error (.propagate (e.toError s.stack pos)), s)
                  | .ok (.ok (v, .ok ()), s) =>
                    match SX.returnToDepth dbg (er.stackPos + 1) s with
                    | .error f => .error f
                    | .ok (.error e, s) => .ok (v, .error (.propagate e), s)
                    | .ok (.ok (), s) => SX.readLoop dbg V fuel er v s : Except Fault (σ × Except VErr ReadToOk × RState)) := by
              intro t r
              obtain ⟨t', _ | ⟨_ | ⟨v', _ | _⟩, s'⟩⟩ := r
              · rfl
              · rfl
              · rfl
              · dsimp only
                rw [← returnToDepth_value]
                generalize returnToDepth dbg (er.stackPos + 1) s' = q
                obtain ⟨m, _ | ⟨_ | _, s''⟩⟩ := q
                · rfl
                · rfl
                · exact ih _ _ _
            cases V.onElem v { name := elem.name, ns, depth := er.stackPos + 1 + 1 } with
            | done x => exact rest _ (.zero, .ok (x, s))
            | readString k =>
              dsimp only
              rw [← readString_value]
              generalize readString dbg _ fuel "" s = q
              obtain ⟨m, _ | ⟨x, s'⟩⟩ := q
              · rfl
              · exact rest _ (.fetches m, .ok (k x, s'))
            | readTo sub k =>
              dsimp only
              rw [← visitAttrs_value V C]
              generalize visitAttrs V C s.stack elem.pos as sub = q
              obtain ⟨a, w, _ | ⟨sub', _ | _⟩⟩ := q
              · rfl
              · exact rest _ (⟨0, a, 0, 0, w⟩, .ok (k sub' (.error _), s))
              · dsimp only
                rw [← ih]
                generalize readLoop dbg V C fuel _ sub' s = q
                obtain ⟨t, _ | ⟨sub'', x, s'⟩⟩ := q
                · rfl
                · exact rest _ (_, .ok (k sub'' x, s'))

theorem readTo_value {σ : Type} (dbg : Bool) (V : Visitor σ) (C : Effort σ) (fuel : Nat) (er : ElemReader) (v : σ) (s : RState) :
    (readTo dbg V C fuel er v s).2 = SX.readTo dbg V fuel er v s := by
  simp only [readTo, SX.readTo]
  cases s.stack[er.stackPos]? with
  | none => rfl
  | some elem =>
    dsimp only
    rw [← visitAttrs_value V C]
    generalize visitAttrs V C s.stack elem.pos er.attrs v = q
    obtain ⟨a, w, _ | ⟨sub', _ | _⟩⟩ := q
    · rfl
    · rfl
    · exact readLoop_value ..

theorem root_value (dbg : Bool) (s : RState) : (root dbg s).2 = SX.root dbg s := by
  simp only [root, SX.root]
  cases s.inner.items with
  | nil => cases s.inner.final <;> rfl
  | cons x l =>
    obtain ⟨e, pos⟩ := x
    cases e with
    | startDocument =>
      dsimp only
      rw [← next_value]
      generalize next dbg _ = r
      obtain ⟨n, _ | ⟨_ | ⟨e, pos⟩, s⟩⟩ := r
      · rfl
      · rfl
      · cases e <;> rfl
    | _ => rfl

theorem endLoop_value (final : Final) (finalPos : Pos) (l : List (XEvent × Pos)) : (endLoop final finalPos l).2 = SX.endLoop final finalPos l := by
  induction l with
  | nil => cases final <;> rfl
  | cons x l ih =>
    obtain ⟨e, pos⟩ := x
    cases e with
    | misc m => cases m with
      | comment => exact ih
      | pi => exact ih
      | whitespace => rfl
    | _ => rfl

theorem endDoc_value (dbg : Bool) (s : RState) : (endDoc dbg s).2 = SX.endDoc dbg s := by
  simp only [endDoc, SX.endDoc]
  rw [← returnToDepth_value]
  generalize returnToDepth dbg 0 s = r
  obtain ⟨n, _ | ⟨_ | _, s⟩⟩ := r
  · rfl
  · rfl
  · exact congrArg Except.ok (endLoop_value ..)

theorem runDeser_value {σ α : Type} (dbg : Bool) (V : Visitor σ) (C : Effort σ) (D : Deser σ α) (fuel : Nat) (er : ElemReader) (s : RState) :
    (runDeser dbg V C D fuel er s).2 = SX.runDeser dbg V D fuel er s := by
  simp only [runDeser, SX.runDeser]
  cases s.stack[er.stackPos]? with
  | none => rfl
  | some elem =>
    dsimp only
    cases D { name := elem.name, ns := er.ns, depth := er.stackPos + 1 } with
    | done x => cases x <;> rfl
    | readString k =>
      dsimp only
      rw [← readString_value]
      generalize readString dbg er fuel "" s = q
      obtain ⟨m, _ | ⟨x, s'⟩⟩ := q
      · rfl
      · dsimp only
        cases k x <;> rfl
    | readTo sub k =>
      dsimp only
      rw [← readTo_value dbg V C]
      generalize readTo dbg V C fuel er sub s = q
      obtain ⟨m, _ | ⟨sub', x, s'⟩⟩ := q
      · rfl
      · dsimp only
        cases k sub' x <;> rfl

theorem read_value {σ α : Type} (dbg : Bool) (V : Visitor σ) (C : Effort σ) (D : Deser σ α) (i : Input) :
    (read dbg V C D i).2 = SX.read dbg V D i := by
  simp only [read, SX.read]
  rw [← root_value]
  generalize root dbg i.start = r
  obtain ⟨n, _ | ⟨_ | er, s⟩⟩ := r
  · rfl
  · rfl
  · dsimp only
    rw [← runDeser_value dbg V C]
    generalize runDeser dbg V C D _ er s = q
    obtain ⟨t, _ | ⟨_ | a, s'⟩⟩ := q
    · rfl
    · rfl
    · dsimp only
      rw [← endDoc_value]
      generalize endDoc dbg s' = z
      obtain ⟨m, _ | _ | _⟩ := z <;> rfl

/-! ### Bounds -/

/-- What is left after `t` was done, of what there was; `slack`: errors fetched that are not accounted for by elements. -/
structure Within (t : Tally) (slack : Nat) (s s' : RState) : Prop where
  elems : t.elems + elements s'.inner.items ≤ elements s.inner.items
  attrs : t.attrs + attributes s'.inner.items ≤ attributes s.inner.items
  chars : t.chars + texts s'.inner.items ≤ texts s.inner.items
  fetched : t.fetched + s'.inner.items.length ≤ s.inner.items.length + t.elems + slack

/-- What fetching `n` events took from the events `l`. -/
def Took (l : List (XEvent × Pos)) (n : Nat) (l' : List (XEvent × Pos)) : Except Error (Event × Pos) → Prop
  | .error _ => l' = [] ∧ n = l.length + 1
  | .ok (.start as _, _) => 1 + elements l' = elements l ∧ as.length + attributes l' = attributes l ∧ texts l' = texts l ∧ n + l'.length = l.length
  | .ok (.end_ _, _) => elements l' = elements l ∧ attributes l' = attributes l ∧ texts l' = texts l ∧ n + l'.length = l.length
  | .ok (.chars _, _) => elements l' = elements l ∧ attributes l' = attributes l ∧ 1 + texts l' = texts l ∧ n + l'.length = l.length

theorem Took.more {l : List (XEvent × Pos)} {n : Nat} {l' : List (XEvent × Pos)} {r : Except Error (Event × Pos)} (h : Took l n l' r) (x : XEvent × Pos)
    (h1 : elements (x :: l) = elements l) (h2 : attributes (x :: l) = attributes l) (h3 : texts (x :: l) = texts l) : Took (x :: l) (n + 1) l' r := by
  revert h
  match r with
  | .error _ =>
    intro ⟨a, b⟩
    exact ⟨a, by simp only [List.length_cons]; omega⟩
  | .ok (.start _ _, _) => simp only [Took, List.length_cons, h1, h2, h3]; omega
  | .ok (.end_ _, _) => simp only [Took, List.length_cons, h1, h2, h3]; omega
  | .ok (.chars _, _) => simp only [Took, List.length_cons, h1, h2, h3]; omega

theorem nextLoop_within (dbg : Bool) (final : Final) (finalPos : Pos) (depth : Nat) (stack : List StackElem) (l : List (XEvent × Pos)) (n : Nat)
    (r : Except Error (Event × Pos)) (s' : RState) (h : nextLoop dbg final finalPos depth stack l = (n, .ok (r, s'))) :
    Took l n s'.inner.items r := by
  induction l generalizing n with
  | nil =>
    cases final with
    | eof => cases h
    | err m p =>
      simp only [nextLoop] at h
      cases h
      exact ⟨rfl, rfl⟩
  | cons x l ih =>
    obtain ⟨e, pos⟩ := x
    cases e with
    | startElement name as ns =>
      simp only [nextLoop] at h
      cases h
      refine ⟨?_, ?_, ?_, ?_⟩ <;> simp only [elements, attributes, texts, List.length_cons] <;> omega
    | endElement name =>
      cases depth with
      | zero => cases h
      | succ d =>
        simp only [nextLoop] at h
        revert h
        split
        · intro h; cases h
        · intro h
          cases h
          refine ⟨?_, ?_, ?_, ?_⟩ <;> simp only [elements, attributes, texts, List.length_cons] <;> omega
    | characters str =>
      simp only [nextLoop] at h
      cases h
      refine ⟨?_, ?_, ?_, ?_⟩ <;> simp only [elements, attributes, texts, List.length_cons] <;> omega
    | cdata str =>
      simp only [nextLoop] at h
      cases h
      refine ⟨?_, ?_, ?_, ?_⟩ <;> simp only [elements, attributes, texts, List.length_cons] <;> omega
    | misc m =>
      simp only [nextLoop] at h
      revert h ih
      generalize nextLoop dbg final finalPos depth stack l = q
      obtain ⟨k, q⟩ := q
      intro ih h
      cases h
      exact (ih k rfl).more _ rfl rfl rfl
    | startDocument =>
      simp only [nextLoop] at h
      revert h ih
      generalize nextLoop dbg final finalPos depth stack l = q
      obtain ⟨k, q⟩ := q
      intro ih h
      cases h
      exact (ih k rfl).more _ rfl rfl rfl

theorem next_within (dbg : Bool) (s : RState) (n : Nat)
    (r : Except Error (Event × Pos)) (s' : RState) (h : next dbg s = (n, .ok (r, s'))) : Took s.inner.items n s'.inner.items r := by
  simp only [next] at h
  revert h
  split
  · intro h; cases h
  · intro h; exact nextLoop_within _ _ _ _ _ _ _ _ _ h

theorem next_error_within (dbg : Bool) (s : RState) (n : Nat) (e : Error) (s' : RState) (h : next dbg s = (n, .ok (.error e, s'))) :
    Within (.fetches n) 1 s s' := by
  obtain ⟨h1, h2⟩ := next_within dbg s n _ s' h
  constructor <;> simp only [Tally.fetches, h1, elements, attributes, texts, List.length_nil] <;> omega

theorem next_ok_within (dbg : Bool) (s : RState) (n : Nat) (x : Event × Pos) (s' : RState) (h : next dbg s = (n, .ok (.ok x, s'))) :
    Within (.fetches n) 0 s s' := by
  have h := next_within dbg s n _ s' h
  obtain ⟨e, pos⟩ := x
  cases e <;> (simp only [Took] at h; constructor <;> simp only [Tally.fetches] <;> omega)

/-- The slack of a result: one if it is an error. -/
def owed {ε α : Type} : Except ε α → Nat
  | .error _ => 1
  | .ok _ => 0

theorem skipLoop_within (dbg : Bool) (target fuel : Nat) (s : RState) (n : Nat) (r : Except Error Unit) (s' : RState)
    (h : skipLoop dbg target fuel s = (n, .ok (r, s'))) : Within (.fetches n) (owed r) s s' := by
  induction fuel generalizing s n with
  | zero => cases h
  | succ fuel ih =>
    simp only [skipLoop] at h
    revert h
    split
    · generalize hq : next dbg s = q
      obtain ⟨m, _ | ⟨_ | x, s1⟩⟩ := q
      · intro h; cases h
      · intro h
        cases h
        exact next_error_within _ _ _ _ _ hq
      · dsimp only
        generalize hz : skipLoop dbg target fuel { s1 with stack := s1.stack.take s1.depth } = z
        obtain ⟨k, z⟩ := z
        intro h
        cases h
        have a := next_ok_within _ _ _ _ _ hq
        have b := ih _ _ hz
        have ⟨a1, a2, a3, a4⟩ := a
        have ⟨b1, b2, b3, b4⟩ := b
        simp only [Tally.fetches] at *
        constructor <;> simp only <;> omega
    · intro h
      cases h
      constructor <;> simp [Tally.fetches, owed]

theorem returnToDepth_within (dbg : Bool) (target : Nat) (s : RState) (n : Nat) (r : Except Error Unit) (s' : RState)
    (h : returnToDepth dbg target s = (n, .ok (r, s'))) : Within (.fetches n) (owed r) s s' := by
  simp only [returnToDepth] at h
  revert h
  split
  · intro h; cases h
  · intro h; exact skipLoop_within _ _ _ _ _ _ _ h

theorem visitAttrs_count {σ : Type} (V : Visitor σ) (C : Effort σ) (stack : List StackElem) (pos : Pos) (l : List XAttr) (v : σ) :
    (visitAttrs V C stack pos l v).1 ≤ l.length := by
  induction l generalizing v with
  | nil => simp [visitAttrs]
  | cons a l ih =>
    simp only [visitAttrs]
    split
    · simp
    · simp
    · rename_i v' h
      have := ih v'
      simp only [List.length_cons]
      omega

theorem readString_within (dbg : Bool) (er : ElemReader) (fuel : Nat) (out : String) (s : RState) (n : Nat) (r : Except VErr String) (s' : RState)
    (h : readString dbg er fuel out s = (n, .ok (r, s'))) : Within (.fetches n) (owed r) s s' := by
  induction fuel generalizing out s n with
  | zero => cases h
  | succ fuel ih =>
    simp only [readString] at h
    revert h
    split
    · intro h; cases h
    · generalize hq : next dbg s = q
      obtain ⟨m, _ | ⟨_ | ⟨x, pos⟩, s1⟩⟩ := q
      · intro h; cases h
      · intro h
        cases h
        exact next_error_within _ _ _ _ _ hq
      · have a := next_ok_within _ _ _ _ _ hq
        have ⟨a1, a2, a3, a4⟩ := a
        cases x with
        | start as ns =>
          dsimp only
          split
          · intro h; cases h
          · intro h
            cases h
            exact ⟨a1, a2, a3, Nat.le_succ_of_le a4⟩
        | end_ name =>
          intro h
          cases h
          exact a
        | chars str =>
          dsimp only
          generalize hz : readString dbg er fuel _ s1 = z
          obtain ⟨k, z⟩ := z
          intro h
          cases h
          have ⟨b1, b2, b3, b4⟩ := ih _ _ _ hz
          simp only [Tally.fetches] at *
          constructor <;> simp only <;> omega

theorem readLoop_within {σ : Type} (dbg : Bool) (V : Visitor σ) (C : Effort σ) (fuel : Nat) (er : ElemReader) (v : σ) (s : RState) (t : Tally)
    (v' : σ) (r : Except VErr ReadToOk) (s' : RState) (h : readLoop dbg V C fuel er v s = (t, .ok (v', r, s'))) : Within t 1 s s' := by
  induction fuel generalizing er v s t v' r s' with
  | zero => cases h
  | succ fuel ih =>
    simp only [readLoop] at h
    revert h
    split
    · intro h; cases h
    · generalize hq : next dbg s = q
      obtain ⟨n, _ | ⟨_ | ⟨e, pos⟩, s1⟩⟩ := q
      · intro h; cases h
      · intro h
        cases h
        exact next_error_within _ _ _ _ _ hq
      · have a := next_within _ _ _ _ _ hq
        cases e with
        | end_ name =>
          intro h
          cases h
          simp only [Took] at a
          constructor <;> simp only [Tally.fetches] <;> omega
        | chars str =>
          simp only [Took] at a
          dsimp only
          cases V.onChars v str pos with
          | error f => intro h; cases h
          | ok x =>
            obtain ⟨v1, _ | _⟩ := x
            · intro h
              cases h
              constructor <;> simp only <;> omega
            · dsimp only
              generalize hz : readLoop dbg V C fuel er v1 s1 = z
              obtain ⟨k, z⟩ := z
              intro h
              cases h
              have ⟨b1, b2, b3, b4⟩ := ih _ _ _ _ _ _ _ hz
              constructor <;> simp only [Tally.add] <;> omega
        | start as ns =>
          simp only [Took] at a
          dsimp only
          cases s1.stack[er.stackPos + 1]? with
          | none => intro h; cases h
          | some elem =>
            dsimp only
            -- what follows the call of `element`, which did `t'`
            have rest : ∀ (w : Nat) (q : Tally × Except Fault ((Except Fault (σ × Except VErr Unit)) × RState)),
                (∀ x s2, q.2 = .ok (x, s2) → q.1.elems + elements s2.inner.items ≤ elements s1.inner.items ∧
                  q.1.attrs + attributes s2.inner.items ≤ attributes s1.inner.items + as.length ∧
                  q.1.chars + texts s2.inner.items ≤ texts s1.inner.items ∧
                  q.1.fetched + s2.inner.items.length ≤ s1.inner.items.length + q.1.elems + 1) →
                (match q with
                  | (t', .error f) => (Tally.add ⟨n, 0, 0, 1, w⟩ t', .error f)
                  | (t', .ok (.error f, _)) => (Tally.add ⟨n, 0, 0, 1, w⟩ t', .error f)
                  | (t', .ok (.ok (v, .error e), s)) => (Tally.add ⟨n, 0, 0, 1, w⟩ t', .ok (v, .error (.propagate (e.toError s.stack pos)), s))
                  | (t', .ok (.ok (v, .ok ()), s)) =>
                    match returnToDepth dbg (er.stackPos + 1) s with
                    | (m, .error f) => ((Tally.add ⟨n, 0, 0, 1, w⟩ t').add (.fetches m), .error f)
                    | (m, .ok (.error e, s)) => ((Tally.add ⟨n, 0, 0, 1, w⟩ t').add (.fetches m), .ok (v, .error (.propagate e), s))
                    | (m, .ok (.ok (), s)) =>
                      match readLoop dbg V C fuel er v s with
                      | (t'', r) => (((Tally.add ⟨n, 0, 0, 1, w⟩ t').add (.fetches m)).add t'', r) : Tally × Except Fault (σ × Except VErr ReadToOk × RState)) = (t, .ok (v', r, s')) → Within t 1 s s' := by
              intro w q hq
              obtain ⟨t', _ | ⟨_ | ⟨v1, _ | _⟩, s2⟩⟩ := q
              · intro h; cases h
              · intro h; cases h
              · have hq := hq _ _ rfl
                intro h
                cases h
                dsimp only at hq
                constructor <;> simp only [Tally.add] <;> omega
              · have hq := hq _ _ rfl
                dsimp only at hq ⊢
                generalize hz : returnToDepth dbg (er.stackPos + 1) s2 = z
                obtain ⟨m, _ | ⟨_ | _, s3⟩⟩ := z
                · intro h; cases h
                · have ⟨b1, b2, b3, b4⟩ := returnToDepth_within _ _ _ _ _ _ hz
                  intro h
                  cases h
                  simp only [Tally.fetches, owed] at b1 b2 b3 b4
                  constructor <;> simp only [Tally.add, Tally.fetches] <;> omega
                · have ⟨b1, b2, b3, b4⟩ := returnToDepth_within _ _ _ _ _ _ hz
                  dsimp only
                  generalize hy : readLoop dbg V C fuel er v1 s3 = y
                  obtain ⟨t2, y⟩ := y
                  intro h
                  cases h
                  have ⟨c1, c2, c3, c4⟩ := ih _ _ _ _ _ _ _ hy
                  simp only [Tally.fetches, owed] at b1 b2 b3 b4
                  constructor <;> simp only [Tally.add, Tally.fetches] <;> omega
            cases V.onElem v { name := elem.name, ns, depth := er.stackPos + 1 + 1 } with
            | done x =>
              refine rest _ (.zero, .ok (x, s1)) ?_
              intro x s2 h
              cases h
              simp only [Tally.zero]
              omega
            | readString k =>
              dsimp only
              generalize hz : readString dbg _ fuel "" s1 = q
              obtain ⟨m, _ | ⟨x, s2⟩⟩ := q
              · intro h; cases h
              · refine rest _ (.fetches m, .ok (k x, s2)) ?_
                intro x' s2' h
                cases h
                have ⟨b1, b2, b3, b4⟩ := readString_within _ _ _ _ _ _ _ _ hz
                have : owed x ≤ 1 := by cases x <;> simp [owed]
                simp only [Tally.fetches] at *
                omega
            | readTo sub k =>
              dsimp only
              have hc := visitAttrs_count V C s1.stack elem.pos as sub
              generalize visitAttrs V C s1.stack elem.pos as sub = q at hc
              obtain ⟨a', w, _ | ⟨sub', _ | _⟩⟩ := q
              · intro h; cases h
              · refine rest _ (⟨0, a', 0, 0, w⟩, .ok (k sub' (.error _), s1)) ?_
                intro x' s2' h
                cases h
                dsimp only at hc ⊢
                omega
              · dsimp only
                generalize hz : readLoop dbg V C fuel _ sub' s1 = q
                obtain ⟨t1, _ | ⟨sub'', x, s2⟩⟩ := q
                · intro h; cases h
                · refine rest _ (_, .ok (k sub'' x, s2)) ?_
                  intro x' s2' h
                  cases h
                  have ⟨b1, b2, b3, b4⟩ := ih _ _ _ _ _ _ _ hz
                  simp only [Tally.add] at *
                  omega

end SX.Cost
