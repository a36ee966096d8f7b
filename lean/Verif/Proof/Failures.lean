import Verif.Spec.Failures
import Verif.Proof.OpenUnwind

/-
Programs that differ at most in how they fail read the same values (C81).
-/
namespace SX.UnwindDe
open SX.Open Spec.Failures

section
variable {σ : Type} {V V' : PVisitor σ}

theorem visitAttrs_like (S : LikeVisitors V V') (stack : List StackElem) (pos : Pos) (l : List XAttr) (v : σ) :
    LikeMut (visitAttrs V stack pos l v) (visitAttrs V' stack pos l v) := by
  induction l generalizing v with
  | nil => exact ⟨rfl, rfl⟩
  | cons a as ih =>
    have h := S.attr v a.name.expanded a.value
    simp only [visitAttrs]
    revert h
    rcases V.onAttr v a.name.expanded a.value with ⟨w, _ | e | _⟩ <;>
      rcases V'.onAttr v a.name.expanded a.value with ⟨w', _ | e' | _⟩ <;> rintro ⟨h1, h2⟩ <;> cases h1 <;> first | cases h2 | skip
    · exact ih _
    all_goals exact ⟨rfl, rfl⟩

/-- Results of `read_to`. -/
def LikeRead {β : Type} (x y : σ × Ret VErr β × RState) : Prop := x.1 = y.1 ∧ Like x.2.1 y.2.1 ∧ x.2.2 = y.2.2

theorem inChild_like (S : LikeVisitors V V') (dbg : Bool) (fuel : Nat) (child : ElemReader) (elem : StackElem) (s : RState) {ρ : Type} {R : ρ → ρ → Prop}
    {a a' : PAction σ ρ} (he : LikeP R a a')
    (ih : ∀ (er : ElemReader) (v : σ) (s : RState), LikeFault LikeRead (readLoop dbg V fuel er v s) (readLoop dbg V' fuel er v s)) :
    LikeFault (fun x y => R x.1 y.1 ∧ x.2 = y.2) (inChild dbg V fuel child elem s a) (inChild dbg V' fuel child elem s a') := by
  cases a <;> cases a' <;> first | exact he.elim | skip
  · exact ⟨he, rfl⟩
  · simp only [inChild]
    rcases readString dbg child fuel "" s with f | ⟨r, s'⟩
    · exact rfl
    · exact ⟨he r, rfl⟩
  · obtain ⟨rfl, hk⟩ := he
    rename_i sub k k'
    have h := visitAttrs_like S s.stack elem.pos child.attrs sub
    simp only [inChild]
    revert h
    rcases visitAttrs V s.stack elem.pos child.attrs sub with ⟨w, _ | e | _⟩ <;>
      rcases visitAttrs V' s.stack elem.pos child.attrs sub with ⟨w', _ | e' | _⟩ <;> rintro ⟨h1, h2⟩ <;> cases h1 <;> first | cases h2 | skip
    · have h3 := ih child w s
      simp only
      revert h3
      rcases readLoop dbg V fuel child w s with f | ⟨sub1, r1, s1⟩ <;> rcases readLoop dbg V' fuel child w s with f' | ⟨sub2, r2, s2⟩ <;> intro h3
      · exact h3
      · exact h3.elim
      · exact h3.elim
      · obtain ⟨h4, h5, h6⟩ := h3
        cases h4
        cases h6
        exact ⟨hk _ _ _ h5, rfl⟩
    all_goals exact ⟨hk _ _ _ rfl, rfl⟩

theorem readLoop_like (S : LikeVisitors V V') (dbg : Bool) (fuel : Nat) (er : ElemReader) (v : σ) (s : RState) :
    LikeFault LikeRead (readLoop dbg V fuel er v s) (readLoop dbg V' fuel er v s) := by
  induction fuel generalizing er v s with
  | zero => exact rfl
  | succ fuel ih =>
    rw [readLoop_step, readLoop_step]
    by_cases hd : (dbg && er.stackPos + 1 != s.stack.length) = true
    · rw [if_pos hd, if_pos hd]
      exact rfl
    rw [if_neg hd, if_neg hd]
    rcases next dbg s with f | ⟨e | ⟨ev, pos⟩, s⟩
    · exact rfl
    · exact ⟨rfl, rfl, rfl⟩
    · cases ev with
      | end_ name => exact ⟨rfl, rfl, rfl⟩
      | chars str =>
        have h := S.chars v str pos
        simp only [onEvent]
        revert h
        rcases V.onChars v str pos with ⟨w, _ | e | _⟩ <;> rcases V'.onChars v str pos with ⟨w', _ | e' | _⟩ <;> rintro ⟨h1, h2⟩ <;>
          cases h1 <;> first | cases h2 | skip
        · exact ih er w s
        all_goals exact ⟨rfl, rfl, rfl⟩
      | start attrs ns =>
        simp only [onEvent]
        rcases s.stack[er.stackPos + 1]? with _ | elem
        · exact rfl
        simp only
        have h := inChild_like S dbg fuel { ns, attrs, stackPos := er.stackPos + 1 } elem s
          (S.elem v { name := elem.name, ns, depth := er.stackPos + 1 + 1 }) ih
        revert h
        generalize inChild dbg V fuel { ns, attrs, stackPos := er.stackPos + 1 } elem s
          (V.onElem v { name := elem.name, ns, depth := er.stackPos + 1 + 1 }) = x
        generalize inChild dbg V' fuel { ns, attrs, stackPos := er.stackPos + 1 } elem s
          (V'.onElem v { name := elem.name, ns, depth := er.stackPos + 1 + 1 }) = y
        intro h
        rcases x with f | ⟨⟨w, r⟩, s1⟩ <;> rcases y with f' | ⟨⟨w', r'⟩, s2⟩
        · exact h
        · exact h.elim
        · exact h.elim
        · obtain ⟨⟨h1, h2⟩, h3⟩ := h
          cases h1
          cases h3
          rcases r with _ | e | _ <;> rcases r' with _ | e' | _ <;> first | cases h2 | skip
          · simp only [afterChild]
            rcases returnToDepth dbg (er.stackPos + 1) s1 with f | ⟨e | _, s''⟩
            · exact rfl
            · exact ⟨rfl, rfl, rfl⟩
            · exact ih er _ s''
          all_goals exact ⟨rfl, rfl, rfl⟩

theorem read_like (S : LikeVisitors V V') {α : Type} {D D' : PDeser σ α} (hD : ∀ i, LikeP Like (D i) (D' i)) (dbg : Bool) (input : Input) :
    LikeFault Like (read dbg V D input) (read dbg V' D' input) := by
  unfold read
  rcases root dbg input.start with f | ⟨e | er, s⟩
  · exact rfl
  · exact rfl
  · have : LikeFault (fun x y => Like x.1 y.1 ∧ x.2 = y.2) (runDeser dbg V D (s.inner.items.length + 1) er s)
        (runDeser dbg V' D' (s.inner.items.length + 1) er s) := by
      rw [runDeser_step, runDeser_step]
      rcases s.stack[er.stackPos]? with _ | elem
      · exact rfl
      · exact inChild_like S dbg _ er elem s (hD _) (fun er v s => readLoop_like S dbg _ er v s)
    simp only
    revert this
    rcases runDeser dbg V D (s.inner.items.length + 1) er s with f | ⟨r, s1⟩ <;>
      rcases runDeser dbg V' D' (s.inner.items.length + 1) er s with f' | ⟨r', s2⟩ <;> intro h
    · exact h
    · exact h.elim
    · exact h.elim
    · obtain ⟨h1, h2⟩ := h
      cases h2
      rcases r with _ | e | _ <;> rcases r' with _ | e' | _ <;> first | cases h1 | skip
      · simp only
        rcases endDoc dbg s1 with f | (e | _) <;> exact rfl
      all_goals exact rfl
end

section
variable {σ : Type} {V : PVisitor σ}

/-- Actions of which no result is a panic. -/
def Calm {ρ : Type} (ok : ρ → Prop) : PAction σ ρ → Prop
  | .done r => ok r
  | .readString k => ∀ x, ok (k x)
  | .readTo _ k => ∀ s r, ok (k s r)

/-- Results that are no panic. -/
def CalmResult {β : Type} (ok : β → Prop) (x : Except Fault β) : Prop := ∀ y, x = .ok y → ok y

theorem noPanic_calm {ε α : Type} (e : ε) (r : Ret ε α) : noPanic e r ≠ .panic := by
  cases r <;> exact fun h => by cases h

theorem inChild_calm (dbg : Bool) (fuel : Nat) (child : ElemReader) (elem : StackElem) (s : RState) {ρ : Type} {ok : ρ → Prop} {a : PAction σ ρ}
    (ha : Calm ok a) : CalmResult (fun x => ok x.1) (inChild dbg V fuel child elem s a) := by
  intro y hy
  cases a with
  | done r => cases hy; exact ha
  | readString k =>
    simp only [inChild] at hy
    revert hy
    rcases readString dbg child fuel "" s with f | ⟨r, s'⟩ <;> intro hy <;> cases hy
    exact ha r
  | readTo sub k =>
    simp only [inChild] at hy
    revert hy
    rcases visitAttrs V s.stack elem.pos child.attrs sub with ⟨w, _ | e | _⟩ <;> simp only <;> intro hy
    · revert hy
      rcases readLoop dbg V fuel child w s with f | ⟨sub1, r1, s1⟩ <;> intro hy <;> cases hy
      exact ha _ _
    · cases hy; exact ha _ _
    · cases hy; exact ha _ _

theorem read_calm {α : Type} {D : PDeser σ α} (hD : ∀ i, Calm (fun r => r ≠ .panic) (D i)) (dbg : Bool) (input : Input) :
    read dbg V D input ≠ .ok .panic := by
  unfold read
  rcases root dbg input.start with f | ⟨e | er, s⟩
  · exact fun h => by cases h
  · exact fun h => by cases h
  · have : CalmResult (fun x => x.1 ≠ .panic) (runDeser dbg V D (s.inner.items.length + 1) er s) := by
      rw [runDeser_step]
      rcases s.stack[er.stackPos]? with _ | elem
      · exact fun _ h => by cases h
      · exact inChild_calm dbg _ er elem s (hD _)
    simp only
    revert this
    rcases runDeser dbg V D (s.inner.items.length + 1) er s with f | ⟨_ | e | _, s1⟩ <;> intro h
    · exact fun h => by cases h
    · simp only
      rcases endDoc dbg s1 with f | (e | _) <;> exact fun h => by cases h
    · exact fun h => by cases h
    · exact absurd rfl (h _ rfl)
end

end SX.UnwindDe
