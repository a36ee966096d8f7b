import Verif.Model.Normalize
import Verif.Spec.Whitespace

/-! Helper lemmas for the white space normalization loop (bytes). -/
namespace SX

/-- What the loop computes on text without leading/trailing white space. -/
def body : List UInt8 → List UInt8
  | [] => []
  | b :: r => if isWsByte b then 0x20 :: body (r.dropWhile isWsByte) else b :: body r
termination_by l => l.length
decreasing_by
  · have := (List.dropWhile_suffix (l := r) isWsByte).length_le
    simp; omega
  · simp

theorem trimEnd_spec (v : List UInt8) (n : Nat) (h : n ≤ v.length) :
    ∃ e, trimEnd v n = some e ∧ e ≤ n ∧
      (v.take n) = v.take e ++ (v.take n).drop e ∧ (∀ b ∈ (v.take n).drop e, isWsByte b = true) ∧
      (∀ b, (v.take e).getLast? = some b → isWsByte b = false) := by
  induction n with
  | zero => exact ⟨0, by simp [trimEnd]⟩
  | succ n ih =>
    have hn : n < v.length := by omega
    unfold trimEnd
    simp only [List.getElem?_eq_getElem hn]
    by_cases hb : isWsByte v[n] = true
    · obtain ⟨e, h1, h2, h3, h4, h5⟩ := ih (by omega)
      refine ⟨e, by simp [hb, h1], by omega, ?_, ?_, h5⟩
      · conv => lhs; rw [← List.take_append_drop e (v.take (n+1))]
        rw [List.take_take, Nat.min_eq_left (by omega)]
      · intro b hbm
        rw [List.take_add_one, List.getElem?_eq_getElem hn, List.drop_append] at hbm
        simp only [Option.toList, List.mem_append] at hbm
        rcases hbm with hbm | hbm
        · exact h4 b hbm
        · have : b = v[n] := by
            have := List.mem_of_mem_drop hbm
            simpa using this
          rw [this]; exact hb
    · refine ⟨n+1, by simp [hb], by omega, by simp, by simp, ?_⟩
      intro b hb'
      rw [List.take_add_one, List.getElem?_eq_getElem hn] at hb'
      simp only [Option.toList, List.getLast?_append, List.getLast?_singleton, Option.some_or,
        Option.some.injEq] at hb'
      rw [← hb']; simpa using hb

theorem skipWs_spec (v : List UInt8) (end_ i : Nat) (h : end_ ≤ v.length) (hi : i ≤ end_) :
    skipWs v end_ i = some (i + (((v.take end_).drop i).takeWhile isWsByte).length) := by
  induction hk : end_ - i generalizing i with
  | zero =>
    have : i = end_ := by omega
    subst this
    unfold skipWs; simp
  | succ k ih =>
    have hlt : i < v.length := by omega
    have hlt' : i < end_ := by omega
    unfold skipWs
    rw [if_pos hlt', List.getElem?_eq_getElem hlt]
    have hd : (v.take end_).drop i = v[i] :: (v.take end_).drop (i+1) := by
      rw [List.drop_eq_getElem_cons (by simp; omega)]
      simp
    by_cases hb : isWsByte v[i] = true
    · simp only [hb, if_true]
      rw [ih (i+1) (by omega) (by omega), hd, List.takeWhile_cons]
      simp [hb]; omega
    · simp [hb, hd, List.takeWhile_cons]

theorem drop_takeWhile_length {α} (p : α → Bool) (l : List α) :
    l.drop (l.takeWhile p).length = l.dropWhile p := by
  induction l with
  | nil => rfl
  | cons a l ih =>
    by_cases h : p a = true
    · simp [List.takeWhile_cons, List.dropWhile_cons, h, ih]
    · simp [List.takeWhile_cons, List.dropWhile_cons, h]

theorem copyWithin_some (v : List UInt8) (s e dst : Nat) (h1 : s ≤ e) (h2 : e ≤ v.length)
    (h3 : dst + (e - s) ≤ v.length) :
    copyWithin v s e dst =
      some (v.take dst ++ (v.drop s).take (e - s) ++ v.drop (dst + (e - s))) := by
  simp [copyWithin, h1, h2, h3]

theorem set_segment (v : List UInt8) (cs ce : Nat) (x : UInt8) (h1 : cs ≤ ce) (h2 : ce < v.length) :
    ((v.set ce x).drop cs).take (ce + 1 - cs) = (v.drop cs).take (ce - cs) ++ [x] := by
  apply List.ext_getElem?
  intro i
  have hm : min (ce - cs) (v.length - cs) = ce - cs := by omega
  simp only [List.getElem?_append, List.getElem?_take, List.getElem?_drop, List.getElem?_set,
    List.length_take, List.length_drop, hm]
  rcases Nat.lt_trichotomy i (ce - cs) with h | h | h
  · rw [if_pos (by omega), if_pos h, if_pos h, if_neg (by omega)]
  · have e : ce = cs + i := by omega
    simp [← h, ← e, h2]; omega
  · rw [if_neg (by omega), if_neg (by omega)]
    simp; omega

theorem keep_segment (v : List UInt8) (cs ce : Nat) (h1 : cs ≤ ce) (h2 : ce < v.length) :
    (v.drop cs).take (ce + 1 - cs) = (v.drop cs).take (ce - cs) ++ [v[ce]] := by
  have := set_segment v cs ce v[ce] h1 h2
  simpa using this

theorem rem_cons (v : List UInt8) (end_ ce : Nat) (h : ce < end_) (h2 : end_ ≤ v.length) :
    (v.take end_).drop ce = v[ce]'(by omega) :: (v.take end_).drop (ce+1) := by
  rw [List.drop_eq_getElem_cons (by simp; omega)]
  simp

theorem set_take (v : List UInt8) (n i : Nat) (x : UInt8) (h : n ≤ i) : (v.set i x).take n = v.take n := by
  rw [List.take_set, List.set_eq_of_length_le]; simp; omega

theorem set_rem (v : List UInt8) (end_ ce : Nat) (x : UInt8) :
    ((v.set ce x).take end_).drop (ce+1) = (v.take end_).drop (ce+1) := by
  apply List.ext_getElem?
  intro i
  simp only [List.getElem?_take, List.getElem?_drop, List.getElem?_set]
  rw [if_neg (by omega : ¬ ce = ce + 1 + i)]

/-- Loop invariant, collapse mode. -/
theorem normLoop_collapse (end_ : Nat) (v : List UInt8) (cs ce outp : Nat)
    (h1 : outp ≤ cs) (h2 : cs ≤ ce) (h3 : ce ≤ end_) (h4 : end_ ≤ v.length) :
    ∃ v' cs' outp', normLoop true end_ v cs ce outp = some (v', cs', end_, outp') ∧
      outp' ≤ cs' ∧ cs' ≤ end_ ∧ v'.length = v.length ∧
      v'.take outp' ++ (v'.drop cs').take (end_ - cs') =
        v.take outp ++ (v.drop cs).take (ce - cs) ++ body ((v.take end_).drop ce) := by
  induction hk : end_ - ce using Nat.strongRecOn generalizing v cs ce outp with
  | ind k ih =>
    unfold normLoop
    by_cases hlt : ce < end_
    · have hv : ce < v.length := by omega
      rw [if_pos hlt, List.getElem?_eq_getElem hv]
      simp only [if_true]
      rw [rem_cons v end_ ce hlt h4]
      by_cases hb : isWsByte v[ce] = true
      · simp only [hb, if_true]
        rw [skipWs_spec _ _ _ (by simp; omega) (by omega)]
        simp only [set_rem]
        generalize hn : (List.takeWhile isWsByte (List.drop (ce + 1) (List.take end_ v))).length = n
        have hn' : n ≤ end_ - (ce+1) := by
          have h5 := (List.takeWhile_prefix (l := List.drop (ce + 1) (List.take end_ v)) isWsByte).length_le
          have h6 : (List.drop (ce + 1) (List.take end_ v)).length ≤ end_ - (ce+1) := by simp; omega
          omega
        rw [body, if_pos hb]
        by_cases hgt : ce + 1 + n > ce + 1
        · rw [if_pos hgt, copyWithin_some _ _ _ _ (by omega) (by simp; omega) (by simp; omega)]
          simp only
          rw [set_segment v cs ce _ h2 hv, set_take _ _ _ _ (by omega : outp ≤ ce)]
          generalize hw : v.take outp ++ (v.drop cs |>.take (ce - cs) |> (· ++ [0x20])) = pre
          have hpre : pre.length = outp + (ce + 1 - cs) := by
            rw [← hw]; simp; omega
          generalize hw2 : pre ++ (v.set ce 0x20).drop (outp + (ce + 1 - cs)) = w
          have hwlen : w.length = v.length := by
            rw [← hw2]; simp [hpre]; omega
          obtain ⟨v', cs', outp', e1, e2, e3, e4, e5⟩ := ih (end_ - (ce+1+n)) (by omega) w (ce+1+n) (ce+1+n)
            (outp + (ce + 1 - cs)) (by omega) (by omega) (by omega) (by omega) rfl
          refine ⟨v', cs', outp', e1, e2, e3, by omega, ?_⟩
          rw [e5]
          have t1 : w.take (outp + (ce + 1 - cs)) = pre := by
            rw [← hw2, List.take_append_of_le_length (by omega), List.take_of_length_le (by omega)]
          have t2 : (w.take end_).drop (ce+1+n) = ((v.take end_).drop (ce+1)).dropWhile isWsByte := by
            rw [← drop_takeWhile_length, hn, List.drop_drop, ← hw2]
            apply List.ext_getElem?
            intro i
            simp only [List.getElem?_take, List.getElem?_drop, List.getElem?_append, List.getElem?_set, hpre]
            rw [if_neg (by omega : ¬ ce + 1 + n + i < outp + (ce + 1 - cs))]
            rw [show outp + (ce + 1 - cs) + (ce + 1 + n + i - (outp + (ce + 1 - cs))) = ce + 1 + n + i by omega]
            rw [if_neg (by omega : ¬ ce = ce + 1 + n + i)]
          rw [t1, t2, ← hw]
          simp
        · rw [if_neg hgt]
          have hn0 : n = 0 := by omega
          obtain ⟨v', cs', outp', e1, e2, e3, e4, e5⟩ := ih (end_ - (ce+1)) (by omega) (v.set ce 0x20) cs (ce+1)
            outp (by omega) (by omega) (by omega) (by simp; omega) rfl
          refine ⟨v', cs', outp', e1, e2, e3, by simpa using e4, ?_⟩
          rw [e5, set_segment v cs ce _ h2 hv, set_take _ _ _ _ (by omega : outp ≤ ce), set_rem]
          have : ((v.take end_).drop (ce+1)).dropWhile isWsByte = (v.take end_).drop (ce+1) := by
            rw [← drop_takeWhile_length, hn, hn0]; rfl
          rw [this]; simp
      · simp only [hb]
        obtain ⟨v', cs', outp', e1, e2, e3, e4, e5⟩ := ih (end_ - (ce+1)) (by omega) v cs (ce+1)
            outp (by omega) (by omega) (by omega) (by omega) rfl
        refine ⟨v', cs', outp', by simpa using e1, e2, e3, e4, ?_⟩
        rw [e5, keep_segment v cs ce h2 hv, body, if_neg hb]
        simp
    · have : ce = end_ := by omega
      subst this
      refine ⟨v, cs, outp, by simp, h1, h2, rfl, ?_⟩
      simp [body]

/-- Loop invariant, replace mode. -/
theorem normLoop_replace (end_ : Nat) (v : List UInt8) (cs ce outp : Nat)
    (h2 : cs ≤ ce) (h3 : ce ≤ end_) (h4 : end_ ≤ v.length) :
    ∃ v', normLoop false end_ v cs ce outp = some (v', cs, end_, outp) ∧
      v'.length = v.length ∧
      v'.take end_ = v.take ce ++ ((v.take end_).drop ce).map (fun b => if isWsByte b then 0x20 else b) := by
  induction hk : end_ - ce using Nat.strongRecOn generalizing v ce with
  | ind k ih =>
    unfold normLoop
    by_cases hlt : ce < end_
    · have hv : ce < v.length := by omega
      rw [if_pos hlt, List.getElem?_eq_getElem hv]
      simp only [Bool.false_eq_true, if_false]
      rw [rem_cons v end_ ce hlt h4]
      by_cases hb : isWsByte v[ce] = true
      · simp only [hb, if_true]
        obtain ⟨v', e1, e2, e3⟩ := ih (end_ - (ce+1)) (by omega) (v.set ce 0x20) (ce+1)
            (by omega) (by omega) (by simp; omega) rfl
        refine ⟨v', e1, by simpa using e2, ?_⟩
        rw [e3, set_rem, List.take_add_one, set_take _ _ _ _ (Nat.le_refl _)]
        simp [hb, hv]
      · simp only [hb]
        obtain ⟨v', e1, e2, e3⟩ := ih (end_ - (ce+1)) (by omega) v (ce+1)
            (by omega) (by omega) (by omega) rfl
        refine ⟨v', by simpa using e1, e2, ?_⟩
        rw [e3, List.take_add_one, List.map_cons, if_neg hb, List.getElem?_eq_getElem hv]
        simp only [Option.toList, List.append_assoc, List.singleton_append]
    · have : ce = end_ := by omega
      subst this
      refine ⟨v, by simp, rfl, ?_⟩
      simp

theorem normalizeBytes_replace (v : List UInt8) :
    normalizeBytes v .replace = some (v.map (fun b => if isWsByte b then 0x20 else b)) := by
  obtain ⟨v', e1, e2, e3⟩ := normLoop_replace v.length v 0 0 0 (by omega) (by omega) (by omega)
  simp only [normalizeBytes, e1, Option.bind_some, normFinish]
  simp [e3]

theorem normalizeBytes_collapse (v : List UInt8) :
    ∃ e, e ≤ v.length ∧ (∀ b ∈ v.drop e, isWsByte b = true) ∧
      (∀ b, (v.take e).getLast? = some b → isWsByte b = false) ∧
      normalizeBytes v .collapse = some (body ((v.take e).dropWhile isWsByte)) := by
  obtain ⟨e, h1, h2, h3, h4, h5⟩ := trimEnd_spec v v.length (Nat.le_refl _)
  have h4' : ∀ b ∈ v.drop e, isWsByte b = true := by simpa using h4
  refine ⟨e, h2, h4', h5, ?_⟩
  simp only [normalizeBytes, h1]
  generalize hst : (List.takeWhile isWsByte (List.take e v)).length = st
  have hst' : st ≤ e := by
    have h5 := (List.takeWhile_prefix (l := List.take e v) isWsByte).length_le
    simp at h5; omega
  obtain ⟨v', cs', outp', e1, e2, e3, e4, e5⟩ := normLoop_collapse e v st st 0 (by omega) (by omega) hst' h2
  simp only [e1, Option.bind_some, normFinish]
  have hb : v'.take outp' ++ (v'.drop cs').take (e - cs') = body ((v.take e).dropWhile isWsByte) := by
    rw [e5, ← drop_takeWhile_length, hst]; simp
  by_cases hgt : cs' > outp'
  · rw [if_pos hgt, copyWithin_some _ _ _ _ (by omega) (by omega) (by omega)]
    simp only [Option.some.injEq]
    rw [List.take_append_of_le_length (by simp; omega), List.take_of_length_le (by simp; omega)]
    exact hb
  · rw [if_neg hgt]
    have : outp' = cs' := by omega
    subst this
    rw [← hb]
    rw [List.take_drop]
    have : outp' + (e - outp') = e := by omega
    rw [this]
    conv => lhs; rw [← List.take_append_drop outp' (v'.take e)]
    rw [List.take_take, Nat.min_eq_left e3]

end SX
