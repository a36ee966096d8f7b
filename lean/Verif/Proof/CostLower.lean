import Verif.Proof.CostWork

/-
The work counted is not less than what the calls take.
-/
namespace SX.Cost

/-- Every call takes its work. -/
def Spent (A T E : Nat) (t : Tally) : Prop := t.attrs * A + t.chars * T + t.elems * E ≤ t.work

theorem Spent.add {A T E : Nat} {a b : Tally} (ha : Spent A T E a) (hb : Spent A T E b) : Spent A T E (a.add b) := by
  simp only [Spent, Tally.add, Nat.add_mul] at *
  omega

theorem Spent.fetches {A T E : Nat} (n : Nat) : Spent A T E (.fetches n) := by simp [Spent, Tally.fetches]

theorem Spent.zero {A T E : Nat} : Spent A T E .zero := by simp [Spent, Tally.zero]

theorem visitAttrs_spent {σ : Type} (V : Visitor σ) (C : Effort σ) (A : Nat) (hA : ∀ v n x, A ≤ C.attr v n x)
    (stack : List StackElem) (pos : Pos) (l : List XAttr) (v : σ) :
    (visitAttrs V C stack pos l v).1 * A ≤ (visitAttrs V C stack pos l v).2.1 := by
  induction l generalizing v with
  | nil => simp [visitAttrs]
  | cons a l ih =>
    have := hA v a.name.expanded a.value
    simp only [visitAttrs]
    split
    · simpa using this
    · simpa using this
    · rename_i v' h
      have := ih v'
      generalize visitAttrs V C stack pos l v' = q at this
      obtain ⟨k, w, q⟩ := q
      simp only [Nat.add_mul] at this ⊢
      omega

theorem readLoop_spent {σ : Type} (dbg : Bool) (V : Visitor σ) (C : Effort σ) (A T E : Nat) (hA : ∀ v n x, A ≤ C.attr v n x)
    (hT : ∀ v x p, T ≤ C.chars v x p) (hE : ∀ v i, E ≤ C.elem v i) (fuel : Nat) (er : ElemReader) (v : σ) (s : RState) :
    Spent A T E (readLoop dbg V C fuel er v s).1 := by
  induction fuel generalizing er v s with
  | zero => exact Spent.zero
  | succ fuel ih =>
    simp only [readLoop]
    split
    · exact Spent.zero
    · generalize next dbg s = q
      obtain ⟨n, _ | ⟨_ | ⟨e, pos⟩, s1⟩⟩ := q
      · exact Spent.fetches n
      · exact Spent.fetches n
      · cases e with
        | end_ name => exact Spent.fetches n
        | chars str =>
          have h1 : Spent A T E ⟨n, 0, 1, 0, C.chars v str pos⟩ := by
            have := hT v str pos
            simp only [Spent]; omega
          dsimp only
          cases V.onChars v str pos with
          | error f => exact h1
          | ok x =>
            obtain ⟨v1, _ | _⟩ := x
            · exact h1
            · exact h1.add (ih _ _ _)
        | start as ns =>
          dsimp only
          cases s1.stack[er.stackPos + 1]? with
          | none => exact Spent.fetches n
          | some elem =>
            dsimp only
            have h1 : Spent A T E ⟨n, 0, 0, 1, C.elem v { name := elem.name, ns := ns, depth := er.stackPos + 1 + 1 }⟩ := by
              have := hE v { name := elem.name, ns := ns, depth := er.stackPos + 1 + 1 }
              simp only [Spent]; omega
            have rest : ∀ (t : Tally) (q : Tally × Except Fault ((Except Fault (σ × Except VErr Unit)) × RState)), Spent A T E t → Spent A T E q.1 →
                Spent A T E (match q with
                  | (t', .error f) => (t.add t', .error f)
                  | (t', .ok (.error f, _)) => (t.add t', .error f)
                  | (t', .ok (.ok (v, .error e), s)) => (t.add t', .ok (v, .error (.propagate (e.toError s.stack pos)), s))
                  | (t', .ok (.ok (v, .ok ()), s)) =>
                    match returnToDepth dbg (er.stackPos + 1) s with
                    | (m, .error f) => ((t.add t').add (.fetches m), .error f)
                    | (m, .ok (.error e, s)) => ((t.add t').add (.fetches m), .ok (v, .error (.propagate e), s))
                    | (m, .ok (.ok (), s)) =>
                      match readLoop dbg V C fuel er v s with
                      | (t'', r) => (((t.add t').add (.fetches m)).add t'', r) : Tally × Except Fault (σ × Except VErr ReadToOk × RState)).1 := by
              intro t q ht hq
              obtain ⟨t', _ | ⟨_ | ⟨v1, _ | _⟩, s2⟩⟩ := q
              · exact ht.add hq
              · exact ht.add hq
              · exact ht.add hq
              · dsimp only
                generalize returnToDepth dbg (er.stackPos + 1) s2 = z
                obtain ⟨m, _ | ⟨_ | _, s3⟩⟩ := z
                · exact (ht.add hq).add (Spent.fetches m)
                · exact (ht.add hq).add (Spent.fetches m)
                · exact ((ht.add hq).add (Spent.fetches m)).add (ih _ _ _)
            cases V.onElem v { name := elem.name, ns, depth := er.stackPos + 1 + 1 } with
            | done x => exact rest _ (.zero, .ok (x, s1)) h1 Spent.zero
            | readString k =>
              dsimp only
              generalize readString dbg _ fuel "" s1 = q
              obtain ⟨m, _ | ⟨x, s2⟩⟩ := q
              · exact rest _ (.fetches m, .error _) h1 (Spent.fetches m)
              · exact rest _ (.fetches m, .ok (k x, s2)) h1 (Spent.fetches m)
            | readTo sub k =>
              dsimp only
              have hc := visitAttrs_spent V C A hA s1.stack elem.pos as sub
              generalize visitAttrs V C s1.stack elem.pos as sub = q at hc
              obtain ⟨a', w, q⟩ := q
              have h2 : Spent A T E ⟨0, a', 0, 0, w⟩ := by
                simp only [Spent]; dsimp only at hc; omega
              obtain _ | ⟨sub', _ | _⟩ := q
              · exact rest _ (⟨0, a', 0, 0, w⟩, .error _) h1 h2
              · exact rest _ (⟨0, a', 0, 0, w⟩, .ok (k sub' (.error _), s1)) h1 h2
              · dsimp only
                have h3 := ih { ns := ns, attrs := as, stackPos := er.stackPos + 1 } sub' s1
                generalize readLoop dbg V C fuel _ sub' s1 = q at h3
                obtain ⟨t1, _ | ⟨sub'', x, s2⟩⟩ := q
                · exact rest _ (_, .error _) h1 (h2.add h3)
                · exact rest _ (_, .ok (k sub'' x, s2)) h1 (h2.add h3)

theorem readTo_spent {σ : Type} (dbg : Bool) (V : Visitor σ) (C : Effort σ) (A T E : Nat) (hA : ∀ v n x, A ≤ C.attr v n x)
    (hT : ∀ v x p, T ≤ C.chars v x p) (hE : ∀ v i, E ≤ C.elem v i) (fuel : Nat) (er : ElemReader) (v : σ) (s : RState) :
    Spent A T E (readTo dbg V C fuel er v s).1 := by
  simp only [readTo]
  cases s.stack[er.stackPos]? with
  | none => exact Spent.zero
  | some elem =>
    dsimp only
    have hc := visitAttrs_spent V C A hA s.stack elem.pos er.attrs v
    generalize visitAttrs V C s.stack elem.pos er.attrs v = q at hc
    obtain ⟨a', w, q⟩ := q
    have h2 : Spent A T E ⟨0, a', 0, 0, w⟩ := by
      simp only [Spent]; dsimp only at hc; omega
    obtain _ | ⟨sub', _ | _⟩ := q
    · exact h2
    · exact h2
    · exact h2.add (readLoop_spent dbg V C A T E hA hT hE fuel er sub' s)

theorem runDeser_spent {σ α : Type} (dbg : Bool) (V : Visitor σ) (C : Effort σ) (A T E : Nat) (hA : ∀ v n x, A ≤ C.attr v n x)
    (hT : ∀ v x p, T ≤ C.chars v x p) (hE : ∀ v i, E ≤ C.elem v i) (D : Deser σ α) (fuel : Nat) (er : ElemReader) (s : RState) :
    Spent A T E (runDeser dbg V C D fuel er s).1 := by
  simp only [runDeser]
  cases s.stack[er.stackPos]? with
  | none => exact Spent.zero
  | some elem =>
    dsimp only
    cases D { name := elem.name, ns := er.ns, depth := er.stackPos + 1 } with
    | done x => cases x <;> exact Spent.zero
    | readString k =>
      dsimp only
      generalize readString dbg er fuel "" s = z
      obtain ⟨m, _ | ⟨x, s1⟩⟩ := z
      · exact Spent.fetches m
      · dsimp only
        cases k x <;> exact Spent.fetches m
    | readTo sub k =>
      dsimp only
      have h := readTo_spent dbg V C A T E hA hT hE fuel er sub s
      generalize readTo dbg V C fuel er sub s = z at h
      obtain ⟨m, _ | ⟨sub', x, s1⟩⟩ := z
      · exact h
      · dsimp only
        cases k sub' x <;> exact h

theorem read_spent {σ α : Type} (dbg : Bool) (V : Visitor σ) (C : Effort σ) (A T E : Nat) (hA : ∀ v n x, A ≤ C.attr v n x)
    (hT : ∀ v x p, T ≤ C.chars v x p) (hE : ∀ v i, E ≤ C.elem v i) (D : Deser σ α) (i : Input) : Spent A T E (read dbg V C D i).1 := by
  simp only [read]
  generalize root dbg i.start = z
  obtain ⟨n, _ | ⟨_ | er, s⟩⟩ := z
  · exact Spent.fetches n
  · exact Spent.fetches n
  · dsimp only
    have h := runDeser_spent dbg V C A T E hA hT hE D (s.inner.items.length + 1) er s
    generalize runDeser dbg V C D (s.inner.items.length + 1) er s = q at h
    have h := (Spent.fetches n).add h
    obtain ⟨t, _ | ⟨_ | a, s'⟩⟩ := q
    · exact h
    · exact h
    · dsimp only
      generalize endDoc dbg s' = z
      obtain ⟨m, _ | _ | _⟩ := z <;> exact h.add (Spent.fetches m)

end SX.Cost
