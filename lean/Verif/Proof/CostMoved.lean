import Verif.Proof.CostWords

/- How many bytes `normalize` moves. -/
namespace SX.Cost
open Spec.Cost

theorem copyWithin_length {v v' : List UInt8} {s e dst : Nat} (h : copyWithin v s e dst = some v') :
    v'.length = v.length ∧ s ≤ e ∧ e ≤ v.length ∧ dst + (e - s) ≤ v.length := by
  simp only [copyWithin] at h
  split at h
  · rename_i hc
    cases h
    simp only [List.length_append, List.length_take, List.length_drop]
    omega
  · cases h

/-- What has been moved by the loop is what has been put in its place; something has been left out if anything has been moved. -/
theorem normLoop_moved (collapse : Bool) (end_ : Nat) (v : List UInt8) (cs ce outp : Nat) (h1 : outp ≤ cs) (h2 : cs ≤ ce) (h3 : ce ≤ end_)
    (v' : List UInt8) (cs' ce' outp' : Nat) (h : (normLoop collapse end_ v cs ce outp).2 = some (v', cs', ce', outp')) :
    (normLoop collapse end_ v cs ce outp).1.moved + outp = outp' ∧ ce' = end_ ∧ cs' ≤ ce' ∧ v'.length = v.length ∧
      (cs' = cs ∧ outp' = outp ∨ outp' < cs') := by
  fun_induction normLoop collapse end_ v cs ce outp with
  | case1 => cases h
  | case2 => cases h
  | case3 => cases h
  | case4 v cs ce outp hl b hb hw v1 hc n ns hs hgt v'' hcp w r hr ih =>
    have hsk := skipWs_looked v1 end_ (ce + 1) ns (by omega) (congrArg Prod.snd hs)
    have hle := copyWithin_length hcp
    rw [hr] at ih
    have := ih (by omega) (by omega) (by omega) h
    have hv1 : v1.length = v.length := by simp [v1]
    dsimp only at this ⊢
    omega
  | case5 v cs ce outp hl b hb hw v1 hc n ns hs hgt w r hr ih =>
    rw [hr] at ih
    have := ih (by omega) (by omega) (by omega) h
    have hv1 : v1.length = v.length := by simp [v1]
    dsimp only at this ⊢
    omega
  | case6 v cs ce outp hl b hb hw v1 hc w r hr ih =>
    rw [hr] at ih
    have := ih (by omega) (by omega) (by omega) h
    have hv1 : v1.length = v.length := by simp [v1]
    dsimp only at this ⊢
    omega
  | case7 v cs ce outp hl b hb hw w r hr ih =>
    rw [hr] at ih
    have := ih (by omega) (by omega) (by omega) h
    dsimp only at this ⊢
    omega
  | case8 v cs ce outp hl =>
    cases h
    dsimp only
    omega

theorem normRest_moved (collapse : Bool) (end_ start : Nat) (v : List UInt8) (hs : start ≤ end_) (he : end_ ≤ v.length) (out : List UInt8)
    (h : (normRest collapse end_ start v).2 = some out) :
    (normRest collapse end_ start v).1.moved = if out.length = end_ then 0 else out.length := by
  simp only [normRest] at h ⊢
  have hb := normLoop_moved collapse end_ v start start 0 (Nat.zero_le _) (Nat.le_refl _) hs
  revert h hb
  generalize normLoop collapse end_ v start start 0 = r
  obtain ⟨w, _ | ⟨v', cs', ce', outp'⟩⟩ := r
  · intro h; cases h
  · intro h hb
    obtain ⟨b1, b2, b3, b4, b5⟩ := hb v' cs' ce' outp' rfl
    dsimp only at b1 h ⊢
    simp only [normFinish] at h ⊢
    split at h
    · rename_i hgt
      rw [if_pos hgt]
      split at h
      · cases h
      · rename_i v2 hcp
        have hl := copyWithin_length hcp
        cases h
        dsimp only
        rw [List.length_take]
        rw [if_neg (by omega)]
        omega
    · rename_i hgt
      cases h
      rw [if_neg hgt, List.length_take]
      dsimp only
      rw [if_pos (by omega)]
      omega

theorem normalize_moved (v out : List UInt8) (h : (normalize v .collapse).2 = some out) :
    (normalize v .collapse).1.moved = if out.length = (v.reverse.dropWhile blank).length then 0 else out.length := by
  obtain ⟨e, h1, h2, h3, h4, h5⟩ := trimEnd_spec v v.length (Nat.le_refl _)
  have h4' : ∀ b ∈ v.drop e, isWsByte b = true := by simpa using h4
  have hlen : (v.reverse.dropWhile blank).length = e := by
    have hb : blank = isWsByte := funext blank_ws
    rw [hb]
    conv => lhs; rw [← List.take_append_drop e v]
    rw [List.reverse_append, List.dropWhile_append_of_pos (by simpa using h4')]
    have : (v.take e).reverse.dropWhile isWsByte = (v.take e).reverse := by
      cases hr : (v.take e).reverse with
      | nil => rfl
      | cons b l =>
        have : (v.take e).getLast? = some b := by rw [List.getLast?_eq_head?_reverse, hr]; rfl
        rw [List.dropWhile_cons, h5 b this]
        rfl
    rw [this]
    simp
    omega
  have hv := trimEnd_value v v.length
  rw [h1] at hv
  simp only [normalize] at h ⊢
  generalize trimEnd v v.length = q at hv h
  obtain ⟨n, q⟩ := q
  dsimp only at hv
  subst hv
  dsimp only at h ⊢
  have hl := leading_looked (v.take e)
  have : (v.take e).length ≤ e := by rw [List.length_take]; omega
  rw [hlen]
  exact normRest_moved true e (leading (v.take e)).2 v (by omega) h2 out h

end SX.Cost
