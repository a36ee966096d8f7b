import Verif.Proof.Normalize

/-! From bytes to characters: the loop's result is the UTF-8 encoding of the specification. -/
namespace SX
open Spec

theorem isWsByte_ofNat (n : Nat) (h : n < 256) :
    isWsByte (UInt8.ofNat n) = true ↔ n = 9 ∨ n = 10 ∨ n = 13 ∨ n = 32 := by
  have e : ∀ k : Nat, k < 256 → (UInt8.ofNat n = UInt8.ofNat k ↔ n = k) := by
    intro k hk
    constructor
    · intro h'
      have := congrArg UInt8.toNat h'
      simp [UInt8.toNat_ofNat'] at this
      omega
    · intro h'; rw [h']
  have e1 := e 9 (by omega)
  have e2 := e 10 (by omega)
  have e3 := e 13 (by omega)
  have e4 := e 32 (by omega)
  unfold isWsByte
  simp only [Bool.or_eq_true, beq_iff_eq]
  rw [← e1, ← e2, ← e3, ← e4]
  simp only [or_assoc]
  rfl

theorem char_eq_iff (c d : Char) : c = d ↔ c.val.toNat = d.val.toNat := by
  constructor
  · intro h; rw [h]
  · intro h; exact Char.ext (UInt32.toNat_inj.mp h)

theorem isWs_iff (c : Char) : isWs c = true ↔
    c.val.toNat = 9 ∨ c.val.toNat = 10 ∨ c.val.toNat = 13 ∨ c.val.toNat = 32 := by
  unfold isWs
  simp only [decide_eq_true_eq, char_eq_iff]
  rfl

theorem utf8_ws (c : Char) (h : isWs c = true) : ∃ b, String.utf8EncodeChar c = [b] ∧ isWsByte b = true := by
  have h' := (isWs_iff c).mp h
  refine ⟨UInt8.ofNat c.val.toNat, ?_, ?_⟩
  · unfold String.utf8EncodeChar
    simp only
    rw [if_pos (by omega)]
  · rw [isWsByte_ofNat _ (by omega)]; exact h'

theorem utf8_not_ws (c : Char) (h : isWs c = false) :
    ∀ b ∈ String.utf8EncodeChar c, isWsByte b = false := by
  have h' : ¬ (c.val.toNat = 9 ∨ c.val.toNat = 10 ∨ c.val.toNat = 13 ∨ c.val.toNat = 32) := by
    rw [← isWs_iff]; simp [h]
  have key : ∀ n, n < 256 → ¬ (n = 9 ∨ n = 10 ∨ n = 13 ∨ n = 32) → isWsByte (UInt8.ofNat n) = false := by
    intro n h1 h2
    cases hw : isWsByte (UInt8.ofNat n) with
    | false => rfl
    | true => exact absurd ((isWsByte_ofNat n h1).mp hw) h2
  intro b hb
  unfold String.utf8EncodeChar at hb
  simp only at hb
  split at hb
  · simp only [List.mem_cons, List.not_mem_nil, or_false] at hb; subst hb; exact key _ (by omega) h'
  · split at hb
    · simp only [List.mem_cons, List.not_mem_nil, or_false] at hb
      rcases hb with hb | hb <;> subst hb <;> exact key _ (by omega) (by omega)
    · split at hb
      · simp only [List.mem_cons, List.not_mem_nil, or_false] at hb
        rcases hb with hb | hb | hb <;> subst hb <;> exact key _ (by omega) (by omega)
      · simp only [List.mem_cons, List.not_mem_nil, or_false] at hb
        rcases hb with hb | hb | hb | hb <;> subst hb <;> exact key _ (by omega) (by omega)

theorem utf8_cons (c : Char) (s : List Char) : utf8 (c :: s) = String.utf8EncodeChar c ++ utf8 s := rfl
theorem utf8_append (s t : List Char) : utf8 (s ++ t) = utf8 s ++ utf8 t := by simp [utf8]

theorem dropWhile_all_false {α} (p : α → Bool) (l r : List α) (h : ∀ b ∈ l, p b = false) (hl : l ≠ []) :
    (l ++ r).dropWhile p = l ++ r := by
  cases l with
  | nil => exact absurd rfl hl
  | cons a l => simp [List.dropWhile_cons, h a (by simp)]

theorem dropWhile_utf8 (s : List Char) : (utf8 s).dropWhile isWsByte = utf8 (s.dropWhile isWs) := by
  induction s with
  | nil => rfl
  | cons c s ih =>
    by_cases h : isWs c = true
    · obtain ⟨b, h1, h2⟩ := utf8_ws c h
      rw [utf8_cons, h1, List.dropWhile_cons_of_pos h]
      simp [List.dropWhile_cons, h2, ih]
    · have h' : isWs c = false := by simpa using h
      rw [List.dropWhile_cons_of_neg h, utf8_cons]
      exact dropWhile_all_false _ _ _ (utf8_not_ws c h') String.utf8EncodeChar_ne_nil

/-- The loop's result on characters. -/
def cbody : List Char → List Char
  | [] => []
  | c :: r => if isWs c then ' ' :: cbody (r.dropWhile isWs) else c :: cbody r
termination_by l => l.length
decreasing_by
  · have := (List.dropWhile_suffix (l := r) isWs).length_le
    simp; omega
  · simp

theorem body_not_ws (l r : List UInt8) (h : ∀ b ∈ l, isWsByte b = false) : body (l ++ r) = l ++ body r := by
  induction l with
  | nil => rfl
  | cons a l ih =>
    rw [List.cons_append, body, if_neg (by simp [h a (by simp)]), ih (fun b hb => h b (by simp [hb]))]
    rfl

theorem body_utf8 (s : List Char) : body (utf8 s) = utf8 (cbody s) := by
  induction hn : s.length using Nat.strongRecOn generalizing s with
  | ind n ih =>
    cases s with
    | nil => simp [utf8, body, cbody]
    | cons c r =>
      by_cases h : isWs c = true
      · obtain ⟨b, h1, h2⟩ := utf8_ws c h
        rw [utf8_cons, h1, List.singleton_append, body, if_pos h2, cbody, if_pos h, dropWhile_utf8,
          ih _ _ _ rfl]
        · rfl
        · have := (List.dropWhile_suffix (l := r) isWs).length_le
          simp at hn; omega
      · have h' : isWs c = false := by simpa using h
        rw [utf8_cons, body_not_ws _ _ (utf8_not_ws c h'), cbody, if_neg h, utf8_cons,
          ih r.length (by simp at hn; omega) r rfl]

/-- Splitting off the maximal white space suffix is unique. -/
theorem split_unique {α} (p : α → Bool) (a b a' b' : List α) (h : a ++ b = a' ++ b')
    (hb : ∀ x ∈ b, p x = true) (hb' : ∀ x ∈ b', p x = true)
    (ha : ∀ x, a.getLast? = some x → p x = false) (ha' : ∀ x, a'.getLast? = some x → p x = false) :
    a = a' := by
  have gen : ∀ (a b a' b' : List α), a ++ b = a' ++ b' → (∀ x ∈ b, p x = true) →
      (∀ x, a'.getLast? = some x → p x = false) → a.length < a'.length → False := by
    intro a b a' b' h hb ha' hlt
    have hne : a' ≠ [] := by intro h; simp [h] at hlt
    have h1 := ha' _ (List.getLast?_eq_some_getLast hne)
    have h2 : a'.getLast hne ∈ b := by
      rw [List.append_eq_append_iff] at h
      rcases h with ⟨c, e1, e2⟩ | ⟨c, e1, e2⟩
      · subst e1
        have : c ≠ [] := by intro h; simp [h] at hlt
        rw [List.getLast_append_of_ne_nil _ this, e2]
        simp
      · subst e1; simp at hlt; omega
    rw [hb _ h2] at h1; cases h1
  rcases Nat.lt_trichotomy a.length a'.length with hl | hl | hl
  · exact (gen a b a' b' h hb ha' hl).elim
  · exact (List.append_inj h hl).1
  · exact (gen a' b' a b h.symm hb' ha hl).elim

/-- Every list splits into a part whose last element is not white space, and white space. -/
theorem split_exists {α} (p : α → Bool) (s : List α) :
    ∃ a b, s = a ++ b ∧ (∀ x ∈ b, p x = true) ∧ (∀ x, a.getLast? = some x → p x = false) := by
  induction hn : s.length generalizing s with
  | zero => 
    have := List.length_eq_zero_iff.mp hn
    subst this
    exact ⟨[], [], rfl, by simp, by simp⟩
  | succ n ih =>
    have hne : s ≠ [] := by intro h; simp [h] at hn
    have hs := (List.dropLast_concat_getLast hne).symm
    by_cases hp : p (s.getLast hne) = true
    · obtain ⟨a, b, e1, e2, e3⟩ := ih s.dropLast (by simp; omega)
      refine ⟨a, b ++ [s.getLast hne], by rw [← List.append_assoc, ← e1]; exact hs, ?_, e3⟩
      intro x hx
      simp only [List.mem_append, List.mem_singleton] at hx
      rcases hx with hx | hx
      · exact e2 x hx
      · rw [hx]; exact hp
    · refine ⟨s, [], by simp, by simp, ?_⟩
      intro x hx
      rw [List.getLast?_eq_some_getLast hne] at hx
      simp only [Option.some.injEq] at hx
      rw [← hx]; simpa using hp

theorem getLast_utf8 (a : List Char) (h : ∀ x, a.getLast? = some x → isWs x = false) :
    ∀ b, (utf8 a).getLast? = some b → isWsByte b = false := by
  intro b hb
  by_cases hne : a = []
  · subst hne; simp [utf8] at hb
  · have ha := (List.dropLast_concat_getLast hne)
    have hl := h _ (List.getLast?_eq_some_getLast hne)
    rw [← ha, utf8_append] at hb
    have e : utf8 [a.getLast hne] = String.utf8EncodeChar (a.getLast hne) := by simp [utf8]
    rw [e, List.getLast?_append] at hb
    cases hg : (String.utf8EncodeChar (a.getLast hne)).getLast? with
    | none => exact absurd (List.getLast?_eq_none_iff.mp hg) String.utf8EncodeChar_ne_nil
    | some y =>
      rw [hg] at hb
      simp at hb
      subst hb
      exact utf8_not_ws _ hl _ (List.mem_of_getLast? hg)

theorem words_nil {α} (p : α → Bool) : words p [] = [] := by
  rw [words]; split
  · rfl
  · simp_all

theorem words_eq {α} (p : α → Bool) (l : List α) : words p l =
    match l.dropWhile p with
    | [] => []
    | c :: r => (c :: r.takeWhile (fun x => !p x)) :: words p (r.dropWhile (fun x => !p x)) := by
  rw [words]
  split
  · rename_i h; rw [h]
  · rename_i h; rw [h]

theorem words_cons_ws {α} (p : α → Bool) (c : α) (r : List α) (h : p c = true) :
    words p (c :: r) = words p r := by
  rw [words_eq p (c :: r), words_eq p r, List.dropWhile_cons_of_pos h]

theorem words_cons_not {α} (p : α → Bool) (c : α) (r : List α) (h : p c = false) :
    words p (c :: r) =
      (c :: r.takeWhile (fun x => !p x)) :: words p (r.dropWhile (fun x => !p x)) := by
  rw [words]
  have h' : ¬ p c = true := by simp [h]
  split
  · rename_i h2; rw [List.dropWhile_cons_of_neg h'] at h2; simp at h2
  · rename_i c' r' h2
    rw [List.dropWhile_cons_of_neg h'] at h2
    simp only [List.cons.injEq] at h2
    obtain ⟨h3, h4⟩ := h2
    subst h3; subst h4; rfl

theorem words_dropWhile {α} (p : α → Bool) (l : List α) : words p (l.dropWhile p) = words p l := by
  induction l with
  | nil => rfl
  | cons c r ih =>
    by_cases h : p c = true
    · rw [List.dropWhile_cons_of_pos h, words_cons_ws _ _ _ h, ih]
    · rw [List.dropWhile_cons_of_neg h]

theorem words_all_ws {α} (p : α → Bool) (l : List α) (h : ∀ x ∈ l, p x = true) : words p l = [] := by
  induction l with
  | nil => exact words_nil p
  | cons c r ih =>
    rw [words_cons_ws _ _ _ (h c (by simp))]
    exact ih (fun x hx => h x (by simp [hx]))

theorem takeWhile_append_ws {α} (p : α → Bool) (a b : List α) (hb : ∀ x ∈ b, p x = false) :
    (a ++ b).takeWhile p = a.takeWhile p := by
  induction a with
  | nil =>
    cases b with
    | nil => rfl
    | cons x b => simp [List.takeWhile_cons, hb x (by simp)]
  | cons x a ih =>
    by_cases h : p x = true
    · simp [List.takeWhile_cons, h, ih]
    · simp [List.takeWhile_cons, h]

theorem dropWhile_append_ws {α} (p : α → Bool) (a b : List α) (hb : ∀ x ∈ b, p x = false) :
    (a ++ b).dropWhile p = a.dropWhile p ++ b := by
  induction a with
  | nil =>
    cases b with
    | nil => rfl
    | cons x b => simp [List.dropWhile_cons, hb x (by simp)]
  | cons x a ih =>
    by_cases h : p x = true
    · simp [List.dropWhile_cons, h, ih]
    · simp [List.dropWhile_cons, h]

theorem words_append_ws {α} (p : α → Bool) (a b : List α) (hb : ∀ x ∈ b, p x = true) :
    words p (a ++ b) = words p a := by
  induction hn : a.length using Nat.strongRecOn generalizing a with
  | ind n ih =>
    cases a with
    | nil => simp [words_nil, words_all_ws p b hb]
    | cons c r =>
      by_cases h : p c = true
      · rw [List.cons_append, words_cons_ws _ _ _ h, words_cons_ws _ _ _ h]
        exact ih r.length (by simp at hn; omega) r rfl
      · have h' : p c = false := by simpa using h
        have hb' : ∀ x ∈ b, (!p x) = false := by intro x hx; simp [hb x hx]
        rw [List.cons_append, words_cons_not _ _ _ h', words_cons_not _ _ _ h',
          takeWhile_append_ws _ _ _ hb', dropWhile_append_ws _ _ _ hb']
        congr 1
        refine ih _ ?_ _ rfl
        have := (List.dropWhile_suffix (l := r) (fun x => !p x)).length_le
        simp at hn; omega

theorem cbody_not_ws_prefix (r : List Char) :
    cbody r = r.takeWhile (fun x => !isWs x) ++ cbody (r.dropWhile (fun x => !isWs x)) := by
  induction r with
  | nil => rfl
  | cons c r ih =>
    by_cases h : isWs c = true
    · simp [h]
    · have h' : isWs c = false := by simpa using h
      rw [List.takeWhile_cons_of_pos (by simp [h']), List.dropWhile_cons_of_pos (by simp [h']), cbody,
        if_neg h, List.cons_append, ← ih]

theorem words_ne_nil_of_last (l : List Char) (hne : l ≠ [])
    (h : ∀ x, l.getLast? = some x → isWs x = false) : words isWs l ≠ [] := by
  induction l with
  | nil => exact absurd rfl hne
  | cons c r ih =>
    by_cases hc : isWs c = true
    · rw [words_cons_ws _ _ _ hc]
      by_cases hr : r = []
      · subst hr
        have := h c rfl
        rw [hc] at this; cases this
      · refine ih hr (fun x hx => h x ?_)
        rw [List.getLast?_cons, hx]; rfl
    · rw [words_cons_not _ _ _ (by simpa using hc)]
      simp

theorem getLast?_suffix {α} (s l : List α) (h : s <:+ l) (hne : s ≠ []) : s.getLast? = l.getLast? := by
  obtain ⟨t, rfl⟩ := h
  rw [List.getLast?_append]
  cases hs : s.getLast? with
  | none => exact absurd (List.getLast?_eq_none_iff.mp hs) hne
  | some x => simp

theorem cbody_eq_words (l : List Char) (hd : ∀ x, l.head? = some x → isWs x = false)
    (hl : ∀ x, l.getLast? = some x → isWs x = false) :
    cbody l = List.intercalate [' '] (words isWs l) := by
  induction hn : l.length using Nat.strongRecOn generalizing l with
  | ind n ih =>
    cases l with
    | nil => simp [cbody, words_nil]
    | cons c r =>
      have hc : isWs c = false := hd c rfl
      rw [words_cons_not _ _ _ hc, cbody, if_neg (by simp [hc]), cbody_not_ws_prefix r]
      cases hr : r.dropWhile (fun x => !isWs x) with
      | nil => simp [cbody, words_nil]
      | cons w r2 =>
        have hw : isWs w = true := by
          have := List.head?_dropWhile_not (fun x => !isWs x) r
          rw [hr] at this; simpa using this
        have hsuf : (w :: r2) <:+ c :: r := by
          rw [← hr]
          exact (List.dropWhile_suffix _).trans (List.suffix_cons c r)
        have hlast : ∀ x, (w :: r2).getLast? = some x → isWs x = false := by
          intro x hx
          exact hl x (by rw [← getLast?_suffix _ _ hsuf (by simp)]; exact hx)
        have hr2 : r2 ≠ [] := by
          intro h
          subst h
          have := hlast w rfl
          rw [hw] at this; cases this
        rw [cbody, if_pos hw, words_cons_ws _ _ _ hw]
        have hlast2 : ∀ x, r2.getLast? = some x → isWs x = false := by
          intro x hx
          exact hlast x (by rw [← getLast?_suffix r2 _ (List.suffix_cons w r2) hr2]; exact hx)
        have hne := words_ne_nil_of_last r2 hr2 hlast2
        have hdne : r2.dropWhile isWs ≠ [] := by
          intro h
          rw [← words_dropWhile, h, words_nil] at hne
          exact hne rfl
        have hih := ih (r2.dropWhile isWs).length ?_ (r2.dropWhile isWs) ?_ ?_ rfl
        · rw [hih, words_dropWhile]
          cases hwd : words isWs r2 with
          | nil => exact absurd hwd hne
          | cons a b => simp [List.intercalate]
        · have h1 := (List.dropWhile_suffix (l := r2) isWs).length_le
          have h2 := hsuf.length_le
          simp at hn h2; omega
        · intro x hx
          have := List.head?_dropWhile_not isWs r2
          rw [hx] at this; simpa using this
        · intro x hx
          exact hlast2 x (by rw [← getLast?_suffix _ _ (List.dropWhile_suffix isWs) hdne]; exact hx)

theorem isWsByte_map_utf8 (s : List Char) :
    (utf8 s).map (fun b => if isWsByte b then 0x20 else b) = utf8 (replaceWs s) := by
  induction s with
  | nil => rfl
  | cons c s ih =>
    rw [utf8_cons, List.map_append, ih]
    have e : replaceWs (c :: s) = (if isWs c then ' ' else c) :: replaceWs s := rfl
    rw [e, utf8_cons]
    congr 1
    by_cases h : isWs c = true
    · obtain ⟨b, h1, h2⟩ := utf8_ws c h
      rw [h1, if_pos h]
      simp only [List.map_cons, h2, if_true, List.map_nil]
      rfl
    · rw [if_neg h]
      have h' : isWs c = false := by simpa using h
      have := utf8_not_ws c h'
      conv => rhs; rw [← List.map_id (String.utf8EncodeChar c)]
      apply List.map_congr_left
      intro b hb
      simp [this b hb]

theorem normalizeBytes_utf8_collapse (s : List Char) :
    normalizeBytes (utf8 s) .collapse = some (utf8 (collapseWs s)) := by
  obtain ⟨e, h1, h2, h3, h4⟩ := normalizeBytes_collapse (utf8 s)
  obtain ⟨a, b, e1, e2, e3⟩ := split_exists isWs s
  have ha : (utf8 s).take e = utf8 a := by
    refine split_unique isWsByte _ ((utf8 s).drop e) _ (utf8 b) ?_ h2 ?_ h3 (getLast_utf8 a e3)
    · rw [List.take_append_drop, ← utf8_append, ← e1]
    · intro x hx
      simp only [utf8, List.mem_flatMap] at hx
      obtain ⟨c, hc1, hc2⟩ := hx
      obtain ⟨y, hy1, hy2⟩ := utf8_ws c (e2 c hc1)
      rw [hy1] at hc2
      simp at hc2; rw [hc2]; exact hy2
  rw [h4, ha, dropWhile_utf8, body_utf8, collapseWs, e1, words_append_ws _ _ _ e2, ← words_dropWhile]
  congr 2
  refine cbody_eq_words _ ?_ ?_
  · intro x hx
    have := List.head?_dropWhile_not isWs a
    rw [hx] at this; simpa using this
  · intro x hx
    by_cases hne : a.dropWhile isWs = []
    · rw [hne] at hx; simp at hx
    · exact e3 x (by rw [← getLast?_suffix _ _ (List.dropWhile_suffix isWs) hne]; exact hx)

end SX
