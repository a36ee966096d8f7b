import Verif.Proof.CostRead
import Verif.Proof.CostText

/- The counts for whole reads, and the work of visitors. -/
namespace SX.Cost
open Spec.Cost

theorem readTo_within {σ : Type} (dbg : Bool) (V : Visitor σ) (C : Effort σ) (fuel : Nat) (er : ElemReader) (v : σ) (s : RState) (t : Tally)
    (v' : σ) (r : Except VErr ReadToOk) (s' : RState) (h : readTo dbg V C fuel er v s = (t, .ok (v', r, s'))) :
    t.elems + elements s'.inner.items ≤ elements s.inner.items ∧
    t.attrs + attributes s'.inner.items ≤ attributes s.inner.items + er.attrs.length ∧
    t.chars + texts s'.inner.items ≤ texts s.inner.items ∧
    t.fetched + s'.inner.items.length ≤ s.inner.items.length + t.elems + 1 := by
  simp only [readTo] at h
  revert h
  cases s.stack[er.stackPos]? with
  | none => intro h; cases h
  | some elem =>
    dsimp only
    have hc := visitAttrs_count V C s.stack elem.pos er.attrs v
    generalize visitAttrs V C s.stack elem.pos er.attrs v = q at hc
    obtain ⟨a', w, _ | ⟨sub', _ | _⟩⟩ := q
    · intro h; cases h
    · intro h
      cases h
      dsimp only at hc ⊢
      omega
    · dsimp only
      generalize hz : readLoop dbg V C fuel er sub' s = z
      obtain ⟨t1, z⟩ := z
      intro h
      cases h
      have ⟨b1, b2, b3, b4⟩ := readLoop_within _ _ _ _ _ _ _ _ _ _ _ hz
      simp only [Tally.add] at *
      omega

theorem endLoop_count (final : Final) (finalPos : Pos) (l : List (XEvent × Pos)) : (endLoop final finalPos l).1 ≤ l.length + 1 := by
  induction l with
  | nil => cases final <;> simp [endLoop]
  | cons x l ih =>
    obtain ⟨e, pos⟩ := x
    cases e with
    | misc m => cases m <;> simp only [endLoop, List.length_cons] <;> omega
    | _ => simp only [endLoop, List.length_cons]; omega

theorem endDoc_count (dbg : Bool) (s : RState) (n : Nat) (r : Except Error Unit) (h : endDoc dbg s = (n, .ok r)) : n ≤ s.inner.items.length + 1 := by
  simp only [endDoc] at h
  revert h
  generalize hz : returnToDepth dbg 0 s = z
  obtain ⟨m, _ | ⟨_ | _, s1⟩⟩ := z
  · intro h; cases h
  · intro h
    cases h
    have ⟨_, _, _, b⟩ := returnToDepth_within _ _ _ _ _ _ hz
    simp only [Tally.fetches, owed] at b
    omega
  · intro h
    have ⟨_, _, _, b⟩ := returnToDepth_within _ _ _ _ _ _ hz
    have c := endLoop_count s1.inner.final s1.inner.finalPos s1.inner.items
    cases h
    simp only [Tally.fetches, owed] at b
    omega

theorem runDeser_within {σ α : Type} (dbg : Bool) (V : Visitor σ) (C : Effort σ) (D : Deser σ α) (fuel : Nat) (er : ElemReader) (s : RState) (t : Tally)
    (r : Except VErr α) (s' : RState) (h : runDeser dbg V C D fuel er s = (t, .ok (r, s'))) :
    t.elems + elements s'.inner.items ≤ elements s.inner.items ∧
    t.attrs + attributes s'.inner.items ≤ attributes s.inner.items + er.attrs.length ∧
    t.chars + texts s'.inner.items ≤ texts s.inner.items ∧
    t.fetched + s'.inner.items.length ≤ s.inner.items.length + t.elems + 1 := by
  simp only [runDeser] at h
  revert h
  cases s.stack[er.stackPos]? with
  | none => intro h; cases h
  | some elem =>
    dsimp only
    cases D { name := elem.name, ns := er.ns, depth := er.stackPos + 1 } with
    | done x =>
      cases x with
      | error f => intro h; cases h
      | ok x =>
        intro h
        cases h
        simp only [Tally.zero]
        omega
    | readString k =>
      dsimp only
      generalize hz : readString dbg er fuel "" s = z
      obtain ⟨m, _ | ⟨x, s1⟩⟩ := z
      · intro h; cases h
      · dsimp only
        have ⟨b1, b2, b3, b4⟩ := readString_within _ _ _ _ _ _ _ _ hz
        have : owed x ≤ 1 := by cases x <;> simp [owed]
        cases k x with
        | error f => intro h; cases h
        | ok y =>
          intro h
          cases h
          simp only [Tally.fetches] at *
          omega
    | readTo sub k =>
      dsimp only
      generalize hz : readTo dbg V C fuel er sub s = z
      obtain ⟨m, _ | ⟨sub', x, s1⟩⟩ := z
      · intro h; cases h
      · dsimp only
        have b := readTo_within _ _ _ _ _ _ _ _ _ _ _ hz
        cases k sub' x with
        | error f => intro h; cases h
        | ok y =>
          intro h
          cases h
          exact b

theorem root_within (dbg : Bool) (s : RState) (n : Nat) (er : ElemReader) (s' : RState) (h : root dbg s = (n, .ok (.ok er, s'))) :
    1 + elements s'.inner.items = elements s.inner.items ∧ er.attrs.length + attributes s'.inner.items = attributes s.inner.items ∧
    texts s'.inner.items = texts s.inner.items ∧ n + s'.inner.items.length = s.inner.items.length := by
  simp only [root] at h
  revert h
  cases hi : s.inner.items with
  | nil => cases s.inner.final <;> (intro h; cases h)
  | cons x l =>
    obtain ⟨e, pos⟩ := x
    cases e with
    | startDocument =>
      dsimp only
      generalize hz : next dbg _ = z
      obtain ⟨m, _ | ⟨_ | ⟨e, p⟩, s1⟩⟩ := z
      · intro h; cases h
      · intro h; cases h
      · have a := next_within _ _ _ _ _ hz
        cases e with
        | start as ns =>
          intro h
          cases h
          simp only [Took] at a
          simp only [elements, attributes, texts, List.length_cons]
          omega
        | end_ _ => intro h; cases h
        | chars _ => intro h; cases h
    | _ => intro h; cases h

theorem root_error_count (dbg : Bool) (s : RState) (n : Nat) (e : Error) (s' : RState) (h : root dbg s = (n, .ok (.error e, s'))) :
    n ≤ s.inner.items.length + 1 := by
  simp only [root] at h
  revert h
  cases hi : s.inner.items with
  | nil => cases s.inner.final <;> (intro h; cases h; simp)
  | cons x l =>
    obtain ⟨e, pos⟩ := x
    cases e with
    | startDocument =>
      dsimp only
      generalize hz : next dbg _ = z
      obtain ⟨m, _ | ⟨_ | ⟨e, p⟩, s1⟩⟩ := z
      · intro h; cases h
      · have a := next_within _ _ _ _ _ hz
        intro h
        cases h
        simp only [Took] at a
        simp only [List.length_cons]
        omega
      · have a := next_within _ _ _ _ _ hz
        cases e with
        | start as ns => intro h; cases h
        | end_ _ =>
          intro h
          cases h
          simp only [Took] at a
          simp only [List.length_cons]
          omega
        | chars _ =>
          intro h
          cases h
          simp only [Took] at a
          simp only [List.length_cons]
          omega
    | _ =>
      intro h
      cases h
      simp only [List.length_cons]
      omega

/-! ### Work of visitors -/

/-- The work is paid for by the calls. -/
def Paid (A T E : Nat) (t : Tally) : Prop := t.work ≤ t.attrs * A + t.chars * T + t.elems * E

theorem Paid.add {A T E : Nat} {a b : Tally} (ha : Paid A T E a) (hb : Paid A T E b) : Paid A T E (a.add b) := by
  simp only [Paid, Tally.add, Nat.add_mul] at *
  omega

theorem Paid.fetches {A T E : Nat} (n : Nat) : Paid A T E (.fetches n) := by simp [Paid, Tally.fetches]

theorem Paid.zero {A T E : Nat} : Paid A T E .zero := by simp [Paid, Tally.zero]

theorem visitAttrs_paid {σ : Type} (V : Visitor σ) (C : Effort σ) (A : Nat) (hA : ∀ v n x, C.attr v n x ≤ A)
    (stack : List StackElem) (pos : Pos) (l : List XAttr) (v : σ) :
    (visitAttrs V C stack pos l v).2.1 ≤ (visitAttrs V C stack pos l v).1 * A := by
  induction l generalizing v with
  | nil => simp [visitAttrs]
  | cons a l ih =>
    have := hA v a.name.expanded a.value
    simp only [visitAttrs]
    split
    · simpa using this
    · simpa using this
    · rename_i v' h
      have := ih v'
      generalize visitAttrs V C stack pos l v' = q at this
      obtain ⟨k, w, q⟩ := q
      simp only [Nat.add_mul] at this ⊢
      omega

theorem readLoop_paid {σ : Type} (dbg : Bool) (V : Visitor σ) (C : Effort σ) (A T E : Nat) (hA : ∀ v n x, C.attr v n x ≤ A)
    (hT : ∀ v x p, C.chars v x p ≤ T) (hE : ∀ v i, C.elem v i ≤ E) (fuel : Nat) (er : ElemReader) (v : σ) (s : RState) :
    Paid A T E (readLoop dbg V C fuel er v s).1 := by
  induction fuel generalizing er v s with
  | zero => exact Paid.zero
  | succ fuel ih =>
    simp only [readLoop]
    split
    · exact Paid.zero
    · generalize next dbg s = q
      obtain ⟨n, _ | ⟨_ | ⟨e, pos⟩, s1⟩⟩ := q
      · exact Paid.fetches n
      · exact Paid.fetches n
      · cases e with
        | end_ name => exact Paid.fetches n
        | chars str =>
          have h1 : Paid A T E ⟨n, 0, 1, 0, C.chars v str pos⟩ := by
            have := hT v str pos
            simp only [Paid]; omega
          dsimp only
          cases V.onChars v str pos with
          | error f => exact h1
          | ok x =>
            obtain ⟨v1, _ | _⟩ := x
            · exact h1
            · exact h1.add (ih _ _ _)
        | start as ns =>
          dsimp only
          cases s1.stack[er.stackPos + 1]? with
          | none => exact Paid.fetches n
          | some elem =>
            dsimp only
            have h1 : Paid A T E ⟨n, 0, 0, 1, C.elem v { name := elem.name, ns := ns, depth := er.stackPos + 1 + 1 }⟩ := by
              have := hE v { name := elem.name, ns := ns, depth := er.stackPos + 1 + 1 }
              simp only [Paid]; omega
            have rest : ∀ (t : Tally) (q : Tally × Except Fault ((Except Fault (σ × Except VErr Unit)) × RState)), Paid A T E t → Paid A T E q.1 →
                Paid A T E (match q with
                  | (t', .error f) => (t.add t', .error f)
                  | (t', .ok (.error f, _)) => (t.add t', .error f)
                  | (t', .ok (.ok (v, .error e), s)) => (t.add t', .ok (v, .error (.propagate (e.toError s.stack pos)), s))
                  | (t', .ok (.ok (v, .ok ()), s)) =>
                    match returnToDepth dbg (er.stackPos + 1) s with
                    | (m, .error f) => ((t.add t').add (.fetches m), .error f)
                    | (m, .ok (.error e, s)) => ((t.add t').add (.fetches m), .ok (v, .error (.propagate e), s))
                    | (m, .ok (.ok (), s)) =>
                      match readLoop dbg V C fuel er v s with
                      | (t'', r) => (((t.add t').add (.fetches m)).add t'', r) : Tally × Except Fault (σ × Except VErr ReadToOk × RState)).1 := by
              intro t q ht hq
              obtain ⟨t', _ | ⟨_ | ⟨v1, _ | _⟩, s2⟩⟩ := q
              · exact ht.add hq
              · exact ht.add hq
              · exact ht.add hq
              · dsimp only
                generalize returnToDepth dbg (er.stackPos + 1) s2 = z
                obtain ⟨m, _ | ⟨_ | _, s3⟩⟩ := z
                · exact (ht.add hq).add (Paid.fetches m)
                · exact (ht.add hq).add (Paid.fetches m)
                · exact ((ht.add hq).add (Paid.fetches m)).add (ih _ _ _)
            cases V.onElem v { name := elem.name, ns, depth := er.stackPos + 1 + 1 } with
            | done x => exact rest _ (.zero, .ok (x, s1)) h1 Paid.zero
            | readString k =>
              dsimp only
              generalize readString dbg _ fuel "" s1 = q
              obtain ⟨m, _ | ⟨x, s2⟩⟩ := q
              · exact rest _ (.fetches m, .error _) h1 (Paid.fetches m)
              · exact rest _ (.fetches m, .ok (k x, s2)) h1 (Paid.fetches m)
            | readTo sub k =>
              dsimp only
              have hc := visitAttrs_paid V C A hA s1.stack elem.pos as sub
              generalize visitAttrs V C s1.stack elem.pos as sub = q at hc
              obtain ⟨a', w, q⟩ := q
              have h2 : Paid A T E ⟨0, a', 0, 0, w⟩ := by
                simp only [Paid]; dsimp only at hc; omega
              obtain _ | ⟨sub', _ | _⟩ := q
              · exact rest _ (⟨0, a', 0, 0, w⟩, .error _) h1 h2
              · exact rest _ (⟨0, a', 0, 0, w⟩, .ok (k sub' (.error _), s1)) h1 h2
              · dsimp only
                have h3 := ih { ns := ns, attrs := as, stackPos := er.stackPos + 1 } sub' s1
                generalize readLoop dbg V C fuel _ sub' s1 = q at h3
                obtain ⟨t1, _ | ⟨sub'', x, s2⟩⟩ := q
                · exact rest _ (_, .error _) h1 (h2.add h3)
                · exact rest _ (_, .ok (k sub'' x, s2)) h1 (h2.add h3)

theorem readTo_paid {σ : Type} (dbg : Bool) (V : Visitor σ) (C : Effort σ) (A T E : Nat) (hA : ∀ v n x, C.attr v n x ≤ A)
    (hT : ∀ v x p, C.chars v x p ≤ T) (hE : ∀ v i, C.elem v i ≤ E) (fuel : Nat) (er : ElemReader) (v : σ) (s : RState) :
    Paid A T E (readTo dbg V C fuel er v s).1 := by
  simp only [readTo]
  cases s.stack[er.stackPos]? with
  | none => exact Paid.zero
  | some elem =>
    dsimp only
    have hc := visitAttrs_paid V C A hA s.stack elem.pos er.attrs v
    generalize visitAttrs V C s.stack elem.pos er.attrs v = q at hc
    obtain ⟨a', w, q⟩ := q
    have h2 : Paid A T E ⟨0, a', 0, 0, w⟩ := by
      simp only [Paid]; dsimp only at hc; omega
    obtain _ | ⟨sub', _ | _⟩ := q
    · exact h2
    · exact h2
    · exact h2.add (readLoop_paid dbg V C A T E hA hT hE fuel er sub' s)

theorem runDeser_paid {σ α : Type} (dbg : Bool) (V : Visitor σ) (C : Effort σ) (A T E : Nat) (hA : ∀ v n x, C.attr v n x ≤ A)
    (hT : ∀ v x p, C.chars v x p ≤ T) (hE : ∀ v i, C.elem v i ≤ E) (D : Deser σ α) (fuel : Nat) (er : ElemReader) (s : RState) :
    Paid A T E (runDeser dbg V C D fuel er s).1 := by
  simp only [runDeser]
  cases s.stack[er.stackPos]? with
  | none => exact Paid.zero
  | some elem =>
    dsimp only
    cases D { name := elem.name, ns := er.ns, depth := er.stackPos + 1 } with
    | done x => cases x <;> exact Paid.zero
    | readString k =>
      dsimp only
      generalize readString dbg er fuel "" s = z
      obtain ⟨m, _ | ⟨x, s1⟩⟩ := z
      · exact Paid.fetches m
      · dsimp only
        cases k x <;> exact Paid.fetches m
    | readTo sub k =>
      dsimp only
      have h := readTo_paid dbg V C A T E hA hT hE fuel er sub s
      generalize readTo dbg V C fuel er sub s = z at h
      obtain ⟨m, _ | ⟨sub', x, s1⟩⟩ := z
      · exact h
      · dsimp only
        cases k sub' x <;> exact h

theorem read_paid {σ α : Type} (dbg : Bool) (V : Visitor σ) (C : Effort σ) (A T E : Nat) (hA : ∀ v n x, C.attr v n x ≤ A)
    (hT : ∀ v x p, C.chars v x p ≤ T) (hE : ∀ v i, C.elem v i ≤ E) (D : Deser σ α) (i : Input) : Paid A T E (read dbg V C D i).1 := by
  simp only [read]
  generalize root dbg i.start = z
  obtain ⟨n, _ | ⟨_ | er, s⟩⟩ := z
  · exact Paid.fetches n
  · exact Paid.fetches n
  · dsimp only
    have h := runDeser_paid dbg V C A T E hA hT hE D (s.inner.items.length + 1) er s
    generalize runDeser dbg V C D (s.inner.items.length + 1) er s = q at h
    have h := (Paid.fetches n).add h
    obtain ⟨t, _ | ⟨_ | a, s'⟩⟩ := q
    · exact h
    · exact h
    · dsimp only
      generalize endDoc dbg s' = z
      obtain ⟨m, _ | _ | _⟩ := z <;> exact h.add (Paid.fetches m)

/-! ### Derived visitors -/

theorem insertBy_length {α : Type} (cmp : α → α → Ordering) (a : α) (l : List α) : (insertBy cmp a l).length = l.length + 1 := by
  induction l with
  | nil => rfl
  | cons b l ih =>
    simp only [insertBy]
    split
    · simp [ih]
    · rfl

theorem sortBy_length {α : Type} (cmp : α → α → Ordering) (l : List α) : (sortBy cmp l).length = l.length := by
  induction l with
  | nil => rfl
  | cons a l ih => simp [sortBy, insertBy_length, ih]

theorem lookup_compared (n : EName) (t : List (Nat × EName)) : lookup n t ≤ digits t.length := by
  simpa [lookup] using find_compared n (t.map Prod.snd)

theorem elemNames_length (fs : List Field) (p : Nat) : (elemNames fs p).length ≤ fs.length := by
  induction fs generalizing p with
  | nil => simp [elemNames]
  | cons f fs ih =>
    have := ih (p + 1)
    simp only [elemNames]
    split <;> simp only [List.length_cons] <;> omega

theorem attrNames_length (fs : List Field) (p : Nat) : (attrNames fs p).length ≤ fs.length := by
  induction fs generalizing p with
  | nil => simp [attrNames]
  | cons f fs ih =>
    have := ih (p + 1)
    simp only [attrNames]
    split <;> simp only [List.length_cons] <;> omega

theorem variantNames_length (vs : List Variant) (p : Nat) : (variantNames vs p).length ≤ vs.length := by
  induction vs generalizing p with
  | nil => simp [variantNames]
  | cons v vs ih =>
    have := ih (p + 1)
    simp only [variantNames]
    split <;> simp only [List.length_cons] <;> omega

theorem delegate_compared (env : Env) (N : Nat) (hN : ∀ e, (env.enm e).variants.length ≤ N) (fs : List FState) (n : EName) (l : List (Nat × Nat)) :
    delegate env fs n l ≤ l.length * digits N := by
  induction l with
  | nil => simp [delegate]
  | cons x l ih =>
    obtain ⟨p, e⟩ := x
    have h1 := lookup_compared n (enumTable (variantNames (env.enm e).variants 0))
    have h2 := variantNames_length (env.enm e).variants 0
    have h3 : (enumTable (variantNames (env.enm e).variants 0)).length ≤ N := by
      simp only [enumTable, List.length_map, sortBy_length]
      have := hN e
      omega
    have h4 := digits_mono h3
    simp only [delegate, List.length_cons, Nat.add_mul]
    cases fs[p]? with
    | none => simp
    | some st =>
      dsimp only
      split <;> omega

theorem flattens_length (fs : List Field) (p : Nat) : (flattens fs p).length = flattened fs := by
  induction fs generalizing p with
  | nil => rfl
  | cons f fs ih =>
    have := ih (p + 1)
    simp only [flattened] at this
    simp only [flattens, flattened, List.countP_cons]
    cases f.kind <;> simp [this]

theorem derivedEffort_attr (env : Env) (F : Nat) (hF : ∀ i, (env.strct i).fields.length ≤ F) (v : DState) (n : EName) (x : String) :
    (derivedEffort env).attr v n x ≤ digits F := by
  cases v with
  | strct i fs =>
    have h1 := lookup_compared n (structTable (attrNames (env.strct i).fields 0))
    have h2 := attrNames_length (env.strct i).fields 0
    have h3 := hF i
    have h4 : (structTable (attrNames (env.strct i).fields 0)).length ≤ F := by
      simp only [structTable, sortBy_length, List.length_map]; omega
    exact Nat.le_trans h1 (digits_mono h4)
  | enm i st => exact Nat.zero_le _

theorem derivedEffort_elem (env : Env) (F K N : Nat) (hF : ∀ i, (env.strct i).fields.length ≤ F) (hK : ∀ i, flattened (env.strct i).fields ≤ K)
    (hN : ∀ e, (env.enm e).variants.length ≤ N) (v : DState) (j : ElemInfo) :
    (derivedEffort env).elem v j ≤ max (digits F + K * digits N) (digits N) := by
  cases v with
  | strct i fs =>
    have h1 := lookup_compared j.name.expanded (structTable (elemNames (env.strct i).fields 0))
    have h2 := elemNames_length (env.strct i).fields 0
    have h3 := hF i
    have h4 : (structTable (elemNames (env.strct i).fields 0)).length ≤ F := by
      simp only [structTable, sortBy_length, List.length_map]; omega
    have h5 := digits_mono h4
    have h6 := delegate_compared env N hN fs j.name.expanded (flattens (env.strct i).fields 0)
    rw [flattens_length] at h6
    have h7 := Nat.mul_le_mul_right (digits N) (hK i)
    refine Nat.le_trans ?_ (Nat.le_max_left _ _)
    simp only [derivedEffort]
    split <;> omega
  | enm i st =>
    have h1 := lookup_compared j.name.expanded (enumTable (variantNames (env.enm i).variants 0))
    have h2 := variantNames_length (env.enm i).variants 0
    have h3 := hN i
    have h4 : (enumTable (variantNames (env.enm i).variants 0)).length ≤ N := by
      simp only [enumTable, List.length_map, sortBy_length]; omega
    exact Nat.le_trans (Nat.le_trans h1 (digits_mono h4)) (Nat.le_max_right _ _)

end SX.Cost
