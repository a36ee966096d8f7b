import Verif.Spec.Cost

/- The counts for normalization, lookup and prefixes. -/
namespace SX.Cost
open Spec.Cost

theorem trimEnd_value (v : List UInt8) (e : Nat) : (trimEnd v e).2 = SX.trimEnd v e := by
  induction e with
  | zero => rfl
  | succ e ih =>
    simp only [trimEnd, SX.trimEnd]
    split <;> rename_i h
    · rw [h]
    · rw [h]
      dsimp only
      split
      · exact ih
      · rfl

theorem trimEnd_looked (v : List UInt8) (e r : Nat) (h : (trimEnd v e).2 = some r) : (trimEnd v e).1 + r ≤ e + 1 ∧ r ≤ e := by
  induction e with
  | zero => simp only [trimEnd] at h ⊢; cases h; omega
  | succ e ih =>
    simp only [trimEnd] at h ⊢
    revert h
    split
    · intro h; cases h
    · split
      · intro h
        have := ih h
        dsimp only at this ⊢
        omega
      · intro h
        cases h
        omega

theorem leading_value (l : List UInt8) : (leading l).2 = (l.takeWhile isWsByte).length := by
  induction l with
  | nil => rfl
  | cons b l ih =>
    simp only [leading, List.takeWhile]
    cases hb : isWsByte b with
    | true => simp only [if_true, List.length_cons]; omega
    | false => rfl

theorem leading_looked (l : List UInt8) : (leading l).1 ≤ (leading l).2 + 1 ∧ (leading l).2 ≤ l.length := by
  induction l with
  | nil => simp [leading]
  | cons b l ih =>
    simp only [leading]
    split
    · simp only [List.length_cons]; omega
    · simp

theorem skipWs_value (v : List UInt8) (end_ i : Nat) : (skipWs v end_ i).2 = SX.skipWs v end_ i := by
  fun_induction SX.skipWs v end_ i with
  | case1 i hi hv => rw [skipWs]; simp [hi, hv]
  | case2 i hi b hv hb ih => rw [skipWs]; simp [hi, hv, hb, ih]
  | case3 i hi b hv hb => rw [skipWs]; simp [hi, hv, hb]
  | case4 i hi => rw [skipWs]; simp [hi]

theorem skipWs_looked (v : List UInt8) (end_ i r : Nat) (hi : i ≤ end_) (h : (skipWs v end_ i).2 = some r) :
    i ≤ r ∧ r ≤ end_ ∧ (skipWs v end_ i).1 ≤ r - i + 1 := by
  fun_induction skipWs v end_ i with
  | case1 i hi hv => cases h
  | case2 i hi b hv hb n r' hs ih =>
    simp only [hs] at ih
    have := ih (by omega) h
    dsimp only
    omega
  | case3 i hi b hv hb => cases h; omega
  | case4 i hi => cases h; omega

theorem normLoop_value (collapse : Bool) (end_ : Nat) (v : List UInt8) (cs ce outp : Nat) :
    (normLoop collapse end_ v cs ce outp).2 = SX.normLoop collapse end_ v cs ce outp := by
  fun_induction normLoop collapse end_ v cs ce outp with
  | case1 => rw [SX.normLoop]; simp [*]
  | case2 v cs ce outp h b hb hw v' hc n hs =>
    have hs' : SX.skipWs (v.set ce 32) end_ (ce + 1) = none := by rw [← skipWs_value]; exact congrArg Prod.snd hs
    rw [SX.normLoop]; simp [h, hb, hw, hs', hc]
  | case3 v cs ce outp h b hb hw v' hc n ns hs hgt hcp =>
    have hs' : SX.skipWs (v.set ce 32) end_ (ce + 1) = some ns := by rw [← skipWs_value]; exact congrArg Prod.snd hs
    have hcp' : copyWithin (v.set ce 32) cs (ce + 1) outp = none := hcp
    rw [SX.normLoop]; simp [h, hb, hw, hs', hc, hgt, hcp']
  | case4 v cs ce outp h b hb hw v' hc n ns hs hgt v'' hcp w r hr ih =>
    have hs' : SX.skipWs (v.set ce 32) end_ (ce + 1) = some ns := by rw [← skipWs_value]; exact congrArg Prod.snd hs
    have hcp' : copyWithin (v.set ce 32) cs (ce + 1) outp = some v'' := hcp
    rw [hr] at ih
    rw [SX.normLoop]; simpa [h, hb, hw, hs', hc, hgt, hcp'] using ih
  | case5 v cs ce outp h b hb hw v' hc n ns hs hgt w r hr ih =>
    have hs' : SX.skipWs (v.set ce 32) end_ (ce + 1) = some ns := by rw [← skipWs_value]; exact congrArg Prod.snd hs
    rw [hr] at ih
    rw [SX.normLoop]; simpa [h, hb, hw, hs', hc, hgt] using ih
  | case6 v cs ce outp h b hb hw v' hc w r hr ih =>
    rw [hr] at ih
    rw [SX.normLoop]; simpa [h, hb, hw, hc] using ih
  | case7 v cs ce outp h b hb hw w r hr ih =>
    rw [hr] at ih
    rw [SX.normLoop]; simpa [h, hb, hw] using ih
  | case8 v cs ce outp h => rw [SX.normLoop]; simp [h]

theorem normLoop_bytes (collapse : Bool) (end_ : Nat) (v : List UInt8) (cs ce outp : Nat) (hcs : cs ≤ ce) (hce : ce ≤ end_)
    (v' : List UInt8) (cs' ce' outp' : Nat) (h : (normLoop collapse end_ v cs ce outp).2 = some (v', cs', ce', outp')) :
    (normLoop collapse end_ v cs ce outp).1.looked ≤ 2 * (end_ - ce) ∧ cs ≤ cs' ∧ cs' ≤ ce' ∧ ce' = end_ ∧
      (normLoop collapse end_ v cs ce outp).1.moved ≤ cs' - cs := by
  fun_induction normLoop collapse end_ v cs ce outp with
  | case1 => cases h
  | case2 => cases h
  | case3 => cases h
  | case4 v cs ce outp hl b hb hw v1 hc n ns hs hgt v'' hcp w r hr ih =>
    have hsk := skipWs_looked v1 end_ (ce + 1) ns (by omega) (congrArg Prod.snd hs)
    rw [hr] at ih
    rw [hs] at hsk
    have := ih (by omega) (by omega) h
    dsimp only at this hsk ⊢
    omega
  | case5 v cs ce outp hl b hb hw v1 hc n ns hs hgt w r hr ih =>
    have hsk := skipWs_looked v1 end_ (ce + 1) ns (by omega) (congrArg Prod.snd hs)
    rw [hr] at ih
    rw [hs] at hsk
    have := ih (by omega) (by omega) h
    dsimp only at this hsk ⊢
    omega
  | case6 v cs ce outp hl b hb hw v1 hc w r hr ih =>
    rw [hr] at ih
    have := ih (by omega) (by omega) h
    dsimp only at this ⊢
    omega
  | case7 v cs ce outp hl b hb hw w r hr ih =>
    rw [hr] at ih
    have := ih (by omega) (by omega) h
    dsimp only at this ⊢
    omega
  | case8 v cs ce outp hl =>
    cases h
    dsimp only
    omega

theorem normFinish_value (end_ : Nat) (st : List UInt8 × Nat × Nat × Nat) : (normFinish end_ st).2 = SX.normFinish end_ st := by
  obtain ⟨v, cs, ce, outp⟩ := st
  simp only [normFinish, SX.normFinish]
  split
  · split <;> rename_i h <;> rw [h]
  · rfl

theorem normFinish_moved (end_ : Nat) (v : List UInt8) (cs ce outp : Nat) : (normFinish end_ (v, cs, ce, outp)).1 ≤ ce - cs := by
  simp only [normFinish]
  split
  · split <;> simp
  · simp

theorem normRest_value (collapse : Bool) (end_ start : Nat) (v : List UInt8) :
    (normRest collapse end_ start v).2 = (SX.normLoop collapse end_ v start start 0).bind (SX.normFinish end_) := by
  simp only [normRest]
  rw [← normLoop_value]
  generalize normLoop collapse end_ v start start 0 = r
  obtain ⟨w, _ | st⟩ := r
  · rfl
  · exact normFinish_value end_ st

theorem normRest_bytes (collapse : Bool) (end_ start : Nat) (v : List UInt8) (hs : start ≤ end_) (out : List UInt8)
    (h : (normRest collapse end_ start v).2 = some out) :
    (normRest collapse end_ start v).1.looked ≤ 2 * (end_ - start) ∧ (normRest collapse end_ start v).1.moved ≤ end_ - start := by
  simp only [normRest] at h ⊢
  have hb := normLoop_bytes collapse end_ v start start 0 (Nat.le_refl _) hs
  revert h hb
  generalize normLoop collapse end_ v start start 0 = r
  obtain ⟨w, _ | ⟨v', cs', ce', outp'⟩⟩ := r
  · intro h; cases h
  · intro h hb
    have hb := hb v' cs' ce' outp' rfl
    have hm := normFinish_moved end_ v' cs' ce' outp'
    dsimp only at hb hm ⊢
    omega

theorem normalize_value (v : List UInt8) (mode : WhiteSpace) : (normalize v mode).2 = normalizeBytes v mode := by
  cases mode with
  | preserve => rfl
  | replace => exact normRest_value false v.length 0 v
  | collapse =>
    simp only [normalize, normalizeBytes]
    rw [← trimEnd_value]
    generalize trimEnd v v.length = r
    obtain ⟨n, _ | e⟩ := r
    · rfl
    · dsimp only
      rw [← leading_value]
      exact normRest_value true e _ v

theorem normalize_bytes (v : List UInt8) (mode : WhiteSpace) (out : List UInt8) (h : (normalize v mode).2 = some out) :
    (normalize v mode).1.looked ≤ 2 * v.length + 2 ∧ (normalize v mode).1.moved ≤ v.length := by
  cases mode with
  | preserve => simp [normalize]
  | replace =>
    have := normRest_bytes false v.length 0 v (Nat.zero_le _) out h
    simp only [normalize]
    omega
  | collapse =>
    simp only [normalize] at h ⊢
    have ht := trimEnd_looked v v.length
    revert h ht
    generalize trimEnd v v.length = r
    obtain ⟨n, _ | e⟩ := r
    · intro h; cases h
    · intro h ht
      have ht := ht e rfl
      have hl := leading_looked (v.take e)
      have hlen : (v.take e).length ≤ e := by rw [List.length_take]; omega
      have := normRest_bytes true e (leading (v.take e)).2 v (by omega) out h
      dsimp only at this ht ⊢
      omega

theorem bsearch_value (cmp : EName → Ordering) (t : List EName) (fuel left right : Nat) :
    (bsearch cmp t fuel left right).2 = SX.bsearch cmp t fuel left right := by
  induction fuel generalizing left right with
  | zero => rfl
  | succ fuel ih =>
    simp only [bsearch, SX.bsearch]
    split
    · split <;> rename_i h
      · rw [h]
      · rw [h]
        dsimp only
        split <;> rename_i h2
        · simp only [h2]; exact ih _ _
        · simp only [h2]; exact ih _ _
        · simp only [h2]
    · rfl

theorem digits_mono {a b : Nat} (h : a ≤ b) : digits a ≤ digits b := by
  induction b using Nat.strongRecOn generalizing a with
  | ind b ih =>
    cases a with
    | zero => simp [digits]
    | succ a =>
      cases b with
      | zero => omega
      | succ b =>
        rw [digits, digits]
        have := ih ((b + 1) / 2) (by omega) (a := (a + 1) / 2) (by omega)
        omega

theorem digits_half {n : Nat} (h : 0 < n) : digits n = digits (n / 2) + 1 := by
  cases n with
  | zero => omega
  | succ n => rw [digits]

theorem bsearch_compared (cmp : EName → Ordering) (t : List EName) (fuel left right : Nat) :
    (bsearch cmp t fuel left right).1 ≤ digits (right - left) := by
  induction fuel generalizing left right with
  | zero => simp [bsearch]
  | succ fuel ih =>
    simp only [bsearch]
    split
    · rename_i hlt
      have hd := digits_half (n := right - left) (by omega)
      split
      · simp
      · split
        · have h1 := ih (left + (right - left) / 2 + 1) right
          have h2 := digits_mono (a := right - (left + (right - left) / 2 + 1)) (b := (right - left) / 2) (by omega)
          dsimp only
          omega
        · have h1 := ih left (left + (right - left) / 2)
          have h2 : left + (right - left) / 2 - left = (right - left) / 2 := by omega
          rw [h2] at h1
          dsimp only
          omega
        · dsimp only
          omega
    · simp

theorem find_value (name : EName) (t : List EName) : (find name t).2 = SX.find name t := bsearch_value _ _ _ _ _

theorem find_compared (name : EName) (t : List EName) : (find name t).1 ≤ digits t.length := by
  have := bsearch_compared (fun x => x.cmp name) t t.length 0 t.length
  simpa [find] using this

end SX.Cost
