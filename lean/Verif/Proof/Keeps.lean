import Verif.Spec.Readable
import Verif.Proof.Prefix

/-
The reader preserves every invariant of the visitor.
-/
namespace SX.Keeping
open Spec

variable {κ σ α : Type} {I : κ → σ → Prop} {V : Visitor σ}

theorem visitAttrs_keeps (K : Keeps I V) (kind : κ) (stack : List StackElem) (pos : Pos) : ∀ (l : List XAttr) (v : σ) {v' r},
    I kind v → visitAttrs V stack pos l v = .ok (v', r) → I kind v' := by
  intro l
  induction l with
  | nil => intro v v' r hv h; cases h; exact hv
  | cons a l ih =>
    intro v v' r hv h
    rw [visitAttrs] at h
    cases ha : V.onAttr v a.name.expanded a.value with
    | error f => rw [ha] at h; cases h
    | ok x =>
      obtain ⟨v1, x⟩ := x
      rw [ha] at h
      have h1 := K.attr _ _ _ _ _ _ hv ha
      cases x with
      | error e' => cases h; exact h1
      | ok u => exact ih v1 h1 h

theorem readLoop_keeps (dbg : Bool) (K : Keeps I V) (fuel : Nat) : ∀ {kind : κ} {er : ElemReader} {v : σ} {s : RState}, I kind v →
    ∀ {v' r s'}, readLoop dbg V fuel er v s = .ok (v', r, s') → I kind v' := by
  induction fuel with
  | zero => intro kind er v s _ v' r s' h; cases h
  | succ fuel ih =>
    intro kind er v s hv v' r s' h
    by_cases hc : (dbg && er.stackPos + 1 != s.stack.length) = true
    · rw [readLoop, if_pos hc] at h; cases h
    · cases hn : next dbg s with
      | error f => rw [readLoop, if_neg hc, hn] at h; cases h
      | ok x =>
        obtain ⟨x, s1⟩ := x
        cases x with
        | error E =>
          rw [readLoop, if_neg hc, hn] at h
          cases h; exact hv
        | ok y =>
          obtain ⟨e, q⟩ := y
          cases e with
          | end_ a =>
            rw [readLoop, if_neg hc, hn] at h
            cases h; exact hv
          | chars str =>
            rw [readLoop, if_neg hc, hn] at h
            simp only at h
            cases ho : V.onChars v str q with
            | error f => rw [ho] at h; cases h
            | ok z =>
              obtain ⟨v1, z⟩ := z
              rw [ho] at h
              have h1 := K.chars _ _ _ _ _ _ hv ho
              cases z with
              | error d => cases h; exact h1
              | ok u => exact ih h1 h
          | start attrs ns =>
            cases he : s1.stack[er.stackPos + 1]? with
            | none => rw [readLoop, if_neg hc, hn] at h; simp only [he] at h; cases h
            | some elem =>
              rw [Prefix.readLoop_start dbg V fuel er v s s1 hc attrs ns q hn elem he] at h
              have key : ∀ {y s2}, Prefix.childRun dbg V fuel { ns, attrs, stackPos := er.stackPos + 1 } elem v s1 = .ok (y, s2) →
                  ∀ v' x, y = .ok (v', x) → I kind v' := by
                intro y s2 hy
                unfold Prefix.childRun at hy
                have hm := K.elem kind v { name := elem.name, ns := ns, depth := er.stackPos + 1 + 1 } hv
                cases hact : V.onElem v { name := elem.name, ns := ns, depth := er.stackPos + 1 + 1 } with
                | done r =>
                  rw [hact] at hm hy
                  cases hy
                  exact hm
                | readString k =>
                  rw [hact] at hm hy
                  simp only at hy
                  cases hr : readString dbg { ns, attrs, stackPos := er.stackPos + 1 } fuel "" s1 with
                  | error f => rw [hr] at hy; cases hy
                  | ok z =>
                    obtain ⟨z, s3⟩ := z
                    rw [hr] at hy
                    cases hy
                    exact hm z
                | readTo sub k =>
                  rw [hact] at hm hy
                  obtain ⟨kind', hm1, hm2⟩ := hm
                  simp only at hy
                  cases hv : visitAttrs V s1.stack elem.pos attrs sub with
                  | error f => rw [hv] at hy; cases hy
                  | ok z =>
                    obtain ⟨sub', z⟩ := z
                    rw [hv] at hy
                    have h1 := visitAttrs_keeps K kind' _ _ _ _ hm1 hv
                    cases z with
                    | error e' => cases hy; exact hm2 _ _ h1
                    | ok u =>
                      simp only at hy
                      cases hr : readLoop dbg V fuel { ns, attrs, stackPos := er.stackPos + 1 } sub' s1 with
                      | error f => rw [hr] at hy; cases hy
                      | ok z =>
                        obtain ⟨sub2, z, s3⟩ := z
                        rw [hr] at hy
                        cases hy
                        exact hm2 _ _ (ih h1 hr)
              cases hr : Prefix.childRun dbg V fuel { ns, attrs, stackPos := er.stackPos + 1 } elem v s1 with
              | error f => rw [hr] at h; cases h
              | ok z =>
                obtain ⟨z, s2⟩ := z
                rw [hr] at h
                cases z with
                | error f => cases h
                | ok z =>
                  obtain ⟨v1, z⟩ := z
                  have h1 := key hr _ _ rfl
                  cases z with
                  | error e => cases h; exact h1
                  | ok u =>
                    simp only at h
                    cases ht : returnToDepth dbg (er.stackPos + 1) s2 with
                    | error f => rw [ht] at h; cases h
                    | ok z =>
                      obtain ⟨z, s3⟩ := z
                      rw [ht] at h
                      cases z with
                      | error E => cases h; exact h1
                      | ok u => exact ih h1 h

theorem readTo_keeps (dbg : Bool) (K : Keeps I V) (fuel : Nat) {kind : κ} {er : ElemReader} {v : σ} {s : RState} (hv : I kind v)
    {v' r s'} (h : readTo dbg V fuel er v s = .ok (v', r, s')) : I kind v' := by
  unfold readTo at h
  split at h
  · cases h
  · rename_i elem _
    cases ha : visitAttrs V s.stack elem.pos er.attrs v with
    | error f => rw [ha] at h; cases h
    | ok z =>
      obtain ⟨v1, z⟩ := z
      rw [ha] at h
      have h1 := visitAttrs_keeps K kind _ _ _ _ hv ha
      cases z with
      | error e => cases h; exact h1
      | ok u => exact readLoop_keeps dbg K fuel h1 h

theorem runDeser_keeps (dbg : Bool) (K : Keeps I V) {D : Deser σ α} {good : α → Prop}
    (hD : ∀ i, Action.Within I (fun r => ∀ x, r = .ok (.ok x) → good x) (D i)) (fuel : Nat) {er : ElemReader} {s : RState} {a s'}
    (h : runDeser dbg V D fuel er s = .ok (.ok a, s')) : good a := by
  unfold runDeser at h
  split at h
  · cases h
  · rename_i elem _
    simp only at h
    have hm := hD { name := elem.name, ns := er.ns, depth := er.stackPos + 1 }
    cases hact : D { name := elem.name, ns := er.ns, depth := er.stackPos + 1 } with
    | done r =>
      rw [hact] at hm h
      cases r with
      | error f => cases h
      | ok r => cases h; exact hm a rfl
    | readString k =>
      rw [hact] at hm h
      simp only at h
      cases hr : readString dbg er fuel "" s with
      | error f => rw [hr] at h; cases h
      | ok z =>
        obtain ⟨z, s1⟩ := z
        rw [hr] at h
        cases hk : k z with
        | error f => simp only [hk] at h; cases h
        | ok y =>
          simp only [hk] at h
          cases h
          exact hm z a hk
    | readTo sub k =>
      rw [hact] at hm h
      obtain ⟨kind, hm1, hm2⟩ := hm
      simp only at h
      cases hr : readTo dbg V fuel er sub s with
      | error f => rw [hr] at h; cases h
      | ok z =>
        obtain ⟨sub', z, s1⟩ := z
        rw [hr] at h
        have h1 := readTo_keeps dbg K fuel hm1 hr
        cases hk : k sub' z with
        | error f => simp only [hk] at h; cases h
        | ok y =>
          simp only [hk] at h
          cases h
          exact hm2 _ _ h1 a hk

theorem read_keeps (dbg : Bool) (K : Keeps I V) {D : Deser σ α} {good : α → Prop}
    (hD : ∀ i, Action.Within I (fun r => ∀ x, r = .ok (.ok x) → good x) (D i)) {input : Input} {a : α}
    (h : read dbg V D input = .ok (.ok a)) : good a := by
  unfold read at h
  split at h
  · cases h
  · cases h
  · split at h
    · cases h
    · cases h
    · rename_i hr
      split at h
      · cases h
      · cases h
      · cases h
        exact runDeser_keeps dbg K hD _ hr

end SX.Keeping
