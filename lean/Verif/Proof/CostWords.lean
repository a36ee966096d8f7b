import Verif.Proof.CostText
import Verif.Spec.Cost
import Verif.Proof.Normalize

/- How many bytes `normalize` looks at. -/
namespace SX.Cost
open Spec.Cost

theorem blank_ws (b : UInt8) : blank b = isWsByte b := by
  rw [Bool.eq_iff_iff]
  simp only [blank, isWsByte, List.mem_cons, List.not_mem_nil, or_false, decide_eq_true_eq, Bool.or_eq_true, beq_iff_eq]
  constructor
  · rintro (h | h | h | h)
    · exact .inr h
    · exact .inl (.inl (.inl h))
    · exact .inl (.inl (.inr h))
    · exact .inl (.inr h)
  · rintro (((h | h) | h) | h)
    · exact .inr (.inl h)
    · exact .inr (.inr (.inl h))
    · exact .inr (.inr (.inr h))
    · exact .inl h

theorem trimEnd_count (v : List UInt8) (n e : Nat) (h : SX.trimEnd v n = some e) : (trimEnd v n).1 + e = n + (if e = 0 then 0 else 1) := by
  induction n with
  | zero =>
    simp only [SX.trimEnd] at h
    cases h
    rfl
  | succ n ih =>
    simp only [SX.trimEnd, trimEnd] at h ⊢
    cases hv : v[n]? with
    | none => rw [hv] at h; cases h
    | some b =>
      rw [hv] at h
      dsimp only at h ⊢
      split at h
      · rename_i hb
        have := ih h
        rw [if_pos hb]
        dsimp only
        omega
      · rename_i hb
        cases h
        rw [if_neg hb]
        simp
        omega

theorem leading_count (l : List UInt8) : (leading l).1 = (leading l).2 + (if (leading l).2 < l.length then 1 else 0) := by
  induction l with
  | nil => rfl
  | cons b l ih =>
    simp only [leading]
    split
    · dsimp only
      rw [ih]
      simp only [List.length_cons, Nat.add_lt_add_iff_right]
      omega
    · simp

theorem skipWs_count (v : List UInt8) (end_ i : Nat) (h : end_ ≤ v.length) (hi : i ≤ end_) :
    (skipWs v end_ i).1 = (((v.take end_).drop i).takeWhile isWsByte).length + (if ((v.take end_).drop i).dropWhile isWsByte = [] then 0 else 1) := by
  induction hk : end_ - i generalizing i with
  | zero =>
    have : i = end_ := by omega
    subst this
    unfold skipWs; simp
  | succ k ih =>
    have hlt : i < v.length := by omega
    have hlt' : i < end_ := by omega
    unfold skipWs
    rw [if_pos hlt', List.getElem?_eq_getElem hlt]
    have hd : (v.take end_).drop i = v[i] :: (v.take end_).drop (i+1) := rem_cons v end_ i hlt' h
    by_cases hb : isWsByte v[i] = true
    · simp only [hb, if_true]
      rw [ih (i+1) (by omega) (by omega), hd, List.takeWhile_cons, List.dropWhile_cons]
      simp [hb]; omega
    · simp [hb, hd, List.takeWhile_cons, List.dropWhile_cons]

theorem wordsAfter_false (l : List UInt8) : wordsAfter true (l.dropWhile isWsByte) = wordsAfter true l := by
  induction l with
  | nil => rfl
  | cons b l ih =>
    rw [List.dropWhile_cons]
    by_cases hb : isWsByte b = true
    · rw [if_pos hb, ih]
      simp [wordsAfter, blank_ws, hb]
    · rw [if_neg hb]

theorem wordsAfter_head (l : List UInt8) (h : l.dropWhile isWsByte = l) : wordsAfter true l = wordsAfter false l + (if l = [] then 0 else 1) := by
  cases l with
  | nil => rfl
  | cons b l =>
    have hb : isWsByte b = false := by
      cases hb : isWsByte b
      · rfl
      · rw [List.dropWhile_cons, if_pos hb] at h
        have := congrArg List.length h
        have h2 := (List.dropWhile_suffix (l := l) isWsByte).length_le
        simp at this
        omega
    simp [wordsAfter, blank_ws, hb]
    omega

theorem dropWhile_dropWhile (l : List UInt8) : (l.dropWhile isWsByte).dropWhile isWsByte = l.dropWhile isWsByte := by
  induction l with
  | nil => rfl
  | cons b l ih =>
    by_cases hb : isWsByte b = true
    · rw [List.dropWhile_cons, if_pos hb, ih]
    · rw [List.dropWhile_cons, if_neg hb, List.dropWhile_cons, if_neg hb]

/-- Collapsing: each byte once, and the first one of each word after a gap once more. -/
theorem normLoop_looked (end_ : Nat) (v : List UInt8) (cs ce outp : Nat)
    (h1 : outp ≤ cs) (h2 : cs ≤ ce) (h3 : ce ≤ end_) (h4 : end_ ≤ v.length) :
    (normLoop true end_ v cs ce outp).1.looked = (end_ - ce) + wordsAfter false ((v.take end_).drop ce) := by
  induction hk : end_ - ce using Nat.strongRecOn generalizing v cs ce outp with
  | ind k ih =>
    unfold normLoop
    by_cases hlt : ce < end_
    · have hv : ce < v.length := by omega
      rw [if_pos hlt, List.getElem?_eq_getElem hv]
      simp only [if_true]
      rw [rem_cons v end_ ce hlt h4]
      by_cases hb : isWsByte v[ce] = true
      · simp only [hb, if_true]
        have e1 := skipWs_value (v.set ce 0x20) end_ (ce + 1)
        have e2 := skipWs_count (v.set ce 0x20) end_ (ce + 1) (by simp; omega) (by omega)
        rw [SX.skipWs_spec _ _ _ (by simp; omega) (by omega)] at e1
        simp only [set_rem] at e1 e2
        have hw : wordsAfter false (v[ce] :: (v.take end_).drop (ce + 1)) =
            wordsAfter false (((v.take end_).drop (ce + 1)).dropWhile isWsByte) + (if ((v.take end_).drop (ce + 1)).dropWhile isWsByte = [] then 0 else 1) := by
          rw [← wordsAfter_head _ (dropWhile_dropWhile _), wordsAfter_false]
          simp [wordsAfter, blank_ws, hb]
        rw [hw]
        have hn' : (((v.take end_).drop (ce + 1)).takeWhile isWsByte).length ≤ end_ - (ce+1) := by
          have h5 := (List.takeWhile_prefix (l := List.drop (ce + 1) (List.take end_ v)) isWsByte).length_le
          have h6 : (List.drop (ce + 1) (List.take end_ v)).length ≤ end_ - (ce+1) := by simp; omega
          omega
        have hdr := drop_takeWhile_length isWsByte ((v.take end_).drop (ce + 1))
        generalize hn : (List.takeWhile isWsByte (List.drop (ce + 1) (List.take end_ v))).length = n at *
        generalize skipWs (v.set ce 0x20) end_ (ce + 1) = q at e1 e2
        obtain ⟨m, q⟩ := q
        dsimp only at e1 e2
        subst e1
        dsimp only
        by_cases hgt : ce + 1 + n > ce + 1
        · rw [if_pos hgt, copyWithin_some _ _ _ _ (by omega) (by simp; omega) (by simp; omega)]
          simp only
          rw [set_segment v cs ce _ h2 hv, set_take _ _ _ _ (by omega : outp ≤ ce)]
          generalize hw : v.take outp ++ (v.drop cs |>.take (ce - cs) |> (· ++ [0x20])) = pre
          have hpre : pre.length = outp + (ce + 1 - cs) := by
            rw [← hw]; simp; omega
          generalize hw2 : pre ++ (v.set ce 0x20).drop (outp + (ce + 1 - cs)) = w
          have hwlen : w.length = v.length := by
            rw [← hw2]; simp [hpre]; omega
          have t2 : (w.take end_).drop (ce+1+n) = ((v.take end_).drop (ce+1)).dropWhile isWsByte := by
            rw [← hdr, List.drop_drop, ← hw2]
            apply List.ext_getElem?
            intro i
            simp only [List.getElem?_take, List.getElem?_drop, List.getElem?_append, List.getElem?_set, hpre]
            rw [if_neg (by omega : ¬ ce + 1 + n + i < outp + (ce + 1 - cs))]
            rw [show outp + (ce + 1 - cs) + (ce + 1 + n + i - (outp + (ce + 1 - cs))) = ce + 1 + n + i by omega]
            rw [if_neg (by omega : ¬ ce = ce + 1 + n + i)]
          have := ih (end_ - (ce+1+n)) (by omega) w (ce+1+n) (ce+1+n)
            (outp + (ce + 1 - cs)) (by omega) (by omega) (by omega) (by omega) rfl
          rw [t2] at this
          rw [this]
          omega
        · rw [if_neg hgt]
          have hn0 : n = 0 := by omega
          subst hn0
          have := ih (end_ - (ce+1)) (by omega) (v.set ce 0x20) cs (ce+1)
            outp (by omega) (by omega) (by omega) (by simp; omega) rfl
          rw [set_rem] at this
          dsimp only
          rw [this, ← hdr, List.drop_zero]
          rw [← hdr, List.drop_zero] at e2
          omega
      · simp only [hb]
        have := ih (end_ - (ce+1)) (by omega) v cs (ce+1)
            outp (by omega) (by omega) (by omega) (by omega) rfl
        simp only [wordsAfter, blank_ws, hb]
        simp [this]
        omega
    · have : ce = end_ := by omega
      subst this
      simp [wordsAfter]
      omega

/-- Replacing: each byte once. -/
theorem normLoop_looked_replace (end_ : Nat) (v : List UInt8) (cs ce outp : Nat) (h2 : ce ≤ end_) (h4 : end_ ≤ v.length) :
    (normLoop false end_ v cs ce outp).1 = ⟨end_ - ce, 0⟩ := by
  induction hk : end_ - ce generalizing v ce with
  | zero => rw [normLoop, if_neg (by omega)]
  | succ k ih =>
    rw [normLoop, if_pos (by omega), List.getElem?_eq_getElem (by omega)]
    dsimp only
    split
    · rw [if_neg (by simp), ih (v.set ce 0x20) (ce + 1) (by omega) (by simp; omega) (by omega)]
    · rw [ih v (ce + 1) (by omega) h4 (by omega)]

theorem wordsAfter_append_blank (l r : List UInt8) (g : Bool) (h : ∀ b ∈ r, isWsByte b = true) : wordsAfter g (l ++ r) = wordsAfter g l := by
  induction l generalizing g with
  | nil =>
    simp only [List.nil_append, wordsAfter]
    induction r generalizing g with
    | nil => rfl
    | cons b r ih => rw [wordsAfter, blank_ws, if_pos (h b (by simp))]; exact ih (fun b hb => h b (by simp [hb])) _
  | cons b l ih =>
    simp only [List.cons_append, wordsAfter, ih]

theorem normRest_looked (collapse : Bool) (end_ start : Nat) (v : List UInt8) : (normRest collapse end_ start v).1.looked = (normLoop collapse end_ v start start 0).1.looked := by
  simp only [normRest]
  generalize normLoop collapse end_ v start start 0 = r
  obtain ⟨w, _ | st⟩ := r <;> rfl

/-- White space is collapsed by looking at each byte, once more at the first byte of each word, and at one byte more. -/
theorem normalize_looked (v : List UInt8) : (normalize v .collapse).1.looked = v.length + (if words v = 0 then 0 else words v + 1) := by
  obtain ⟨e, h1, h2, h3, h4, h5⟩ := trimEnd_spec v v.length (Nat.le_refl _)
  have h4' : ∀ b ∈ v.drop e, isWsByte b = true := by simpa using h4
  have hc := trimEnd_count v v.length e h1
  have hv := trimEnd_value v v.length
  rw [h1] at hv
  simp only [normalize]
  generalize trimEnd v v.length = q at hc hv
  obtain ⟨n, q⟩ := q
  dsimp only at hc hv
  subst hv
  dsimp only
  have hl := leading_count (v.take e)
  have hl2 := leading_value (v.take e)
  have hdr := drop_takeWhile_length isWsByte (v.take e)
  have hle := (List.takeWhile_prefix (l := v.take e) isWsByte).length_le
  generalize leading (v.take e) = q at hl hl2
  obtain ⟨m, st⟩ := q
  dsimp only at hl hl2
  dsimp only
  rw [← hl2] at hdr hle
  have hlen : (v.take e).length = e := by simp; omega
  rw [hlen] at hl hle
  rw [normRest_looked, normLoop_looked e v st st 0 (by omega) (by omega) hle h2, hdr]
  have hw : words v = wordsAfter true ((v.take e).dropWhile isWsByte) := by
    rw [wordsAfter_false, words]
    conv => lhs; rw [← List.take_append_drop e v]
    exact wordsAfter_append_blank _ _ _ h4'
  rw [wordsAfter_head _ (dropWhile_dropWhile _)] at hw
  by_cases he : e = 0
  · subst he
    simp [wordsAfter] at hw
    have : st = 0 := by omega
    subst this
    simp [wordsAfter, hw] at *
    omega
  · have hlt : st < e := by
      apply Nat.lt_of_le_of_ne hle
      intro hst
      rw [hst] at hdr
      have hnil : (v.take e).dropWhile isWsByte = [] := by rw [← hdr]; simp
      have hall : ∀ b ∈ v.take e, isWsByte b = true := by
        have := List.takeWhile_append_dropWhile (p := isWsByte) (l := v.take e)
        rw [hnil, List.append_nil] at this
        intro b hb
        rw [← this] at hb
        have := List.all_takeWhile (p := isWsByte) (l := v.take e)
        rw [List.all_eq_true] at this
        exact this b hb
      have hne : v.take e ≠ [] := by intro h; rw [h] at hlen; simp at hlen; omega
      have hlast := List.getLast?_eq_some_getLast hne
      have := h5 _ hlast
      rw [hall _ (List.getLast_mem hne)] at this
      cases this
    rw [if_pos hlt] at hl
    rw [if_neg he] at hc
    have hne : (v.take e).dropWhile isWsByte ≠ [] := by
      intro h
      rw [← hdr] at h
      have := congrArg List.length h
      simp at this
      omega
    rw [if_neg hne] at hw
    rw [if_neg (by omega)]
    omega

end SX.Cost
