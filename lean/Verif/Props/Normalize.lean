import Verif.Proof.NormalizeUtf8

/-! # C01-C03: white space normalization -/
namespace SX
open Spec

/-- The specified result of each mode, on characters. -/
def Spec.normalized : WhiteSpace → List Char → List Char
  | .preserve, s => s
  | .replace, s => replaceWs s
  | .collapse, s => collapseWs s

theorem normalizeBytes_utf8 (s : List Char) (mode : WhiteSpace) :
    normalizeBytes (utf8 s) mode = some (utf8 (normalized mode s)) := by
  cases mode with
  | preserve => rfl
  | replace => rw [normalizeBytes_replace, isWsByte_map_utf8]; rfl
  | collapse => exact normalizeBytes_utf8_collapse s

theorem bytes_toList (s : String) : s.toByteArray.data.toList = utf8 s.toList := by
  rw [← String.utf8Encode_toList]
  simp [List.utf8Encode, utf8]

theorem utf8_toByteArray (l : List Char) : ByteArray.mk (utf8 l).toArray = l.utf8Encode := by
  apply ByteArray.ext
  simp [List.utf8Encode, utf8]

/-- **C02**.  The bytes reaching the unchecked conversion are the UTF-8 encoding of a string (and
no index is out of range on the way). -/
theorem C02_normalize_valid_utf8 (s : String) (mode : WhiteSpace) :
    ∃ b t, normalizeBytes s.toByteArray.data.toList mode = some b ∧
      ByteArray.mk b.toArray = String.toByteArray t ∧ t = String.ofList (normalized mode s.toList) := by
  refine ⟨utf8 (normalized mode s.toList), String.ofList (normalized mode s.toList), ?_, ?_, rfl⟩
  · rw [bytes_toList, normalizeBytes_utf8]
  · rw [utf8_toByteArray, String.toByteArray_ofList]

/-- **C01**.  `normalize` neither panics nor is undefined, and returns the specified text. -/
theorem C01_normalize_spec (s : String) (mode : WhiteSpace) :
    normalize s mode = .ok (String.ofList (normalized mode s.toList)) := by
  obtain ⟨b, t, h1, h2, h3⟩ := C02_normalize_valid_utf8 s mode
  unfold normalize
  rw [h1]
  simp only [h2, String.fromUTF8?, t.isValidUTF8, dite_true]
  subst h3; rfl

/-- Concrete instance: 1-, 2- and 4-byte characters, all four white space characters. -/
example : normalize " \t aé\r\n b😀 " .collapse = .ok "aé b😀" := by
  rw [C01_normalize_spec]
  simp [normalized, collapseWs, words_cons_ws, words_cons_not, words_nil, isWs, List.intercalate]
example : normalize " \t a\nb" .replace = .ok "   a b" := by
  rw [C01_normalize_spec]; rfl

theorem collapse_words_noWs (l : List Char) : ∀ w ∈ words isWs l, w ≠ [] ∧ ∀ c ∈ w, isWs c = false := by
  induction hn : l.length using Nat.strongRecOn generalizing l with
  | ind n ih =>
    cases l with
    | nil => simp [words_nil]
    | cons c r =>
      by_cases h : isWs c = true
      · rw [words_cons_ws _ _ _ h]
        exact ih r.length (by simp at hn; omega) r rfl
      · have h' : isWs c = false := by simpa using h
        rw [words_cons_not _ _ _ h']
        intro w hw
        rcases List.mem_cons.mp hw with hw | hw
        · subst hw
          refine ⟨by simp, ?_⟩
          intro x hx
          rcases List.mem_cons.mp hx with hx | hx
          · subst hx; exact h'
          · have := (List.all_takeWhile (l := r) (p := fun x => !isWs x))
            rw [List.all_eq_true] at this
            simpa using this x hx
        · refine ih _ ?_ _ rfl w hw
          have := (List.dropWhile_suffix (l := r) (fun x => !isWs x)).length_le
          simp at hn; omega

theorem words_single (w : List Char) (hw : w ≠ []) (h : ∀ c ∈ w, isWs c = false) (rest : List Char)
    (hr : ∀ x, rest.head? = some x → isWs x = true) : words isWs (w ++ rest) = w :: words isWs rest := by
  cases w with
  | nil => exact absurd rfl hw
  | cons c w =>
    rw [List.cons_append, words_cons_not _ _ _ (h c (by simp))]
    have : ∀ (w : List Char), (∀ c ∈ w, isWs c = false) →
        (w ++ rest).takeWhile (fun x => !isWs x) = w ∧ (w ++ rest).dropWhile (fun x => !isWs x) = rest := by
      intro w
      induction w with
      | nil =>
        intro _
        cases rest with
        | nil => simp
        | cons x r => simp [hr x rfl]
      | cons a w ih =>
        intro h
        obtain ⟨i1, i2⟩ := ih (fun c hc => h c (by simp [hc]))
        simp [h a (by simp), i1, i2]
    obtain ⟨t1, t2⟩ := this w (fun c hc => h c (by simp [hc]))
    rw [t1, t2]

theorem words_intercalate (ws : List (List Char)) (h : ∀ w ∈ ws, w ≠ [] ∧ ∀ c ∈ w, isWs c = false) :
    words isWs (List.intercalate [' '] ws) = ws := by
  induction ws with
  | nil => simp [words_nil]
  | cons w ws ih =>
    obtain ⟨h1, h2⟩ := h w (by simp)
    have ih' := ih (fun x hx => h x (by simp [hx]))
    cases ws with
    | nil =>
      have : List.intercalate [' '] [w] = w ++ [] := by simp
      rw [this, words_single w h1 h2 [] (by simp), words_nil]
    | cons w2 ws =>
      have : List.intercalate [' '] (w :: w2 :: ws) = w ++ ' ' :: List.intercalate [' '] (w2 :: ws) := by
        simp [List.intercalate]
      rw [this, words_single w h1 h2 _ (by simp [isWs]), words_cons_ws _ _ _ (by rfl), ih']

theorem words_replaceWs (l : List Char) : words isWs (replaceWs l) = words isWs l := by
  have hmap : ∀ l : List Char, (replaceWs l).takeWhile (fun x => !isWs x) = l.takeWhile (fun x => !isWs x) ∧
      (replaceWs l).dropWhile (fun x => !isWs x) = replaceWs (l.dropWhile (fun x => !isWs x)) := by
    intro l
    induction l with
    | nil => simp [replaceWs]
    | cons c r ih =>
      have e : replaceWs (c :: r) = (if isWs c then ' ' else c) :: replaceWs r := rfl
      by_cases h : isWs c = true
      · have : isWs ' ' = true := rfl
        simp [e, h, this]
      · simp [e, h, ih]
  induction hn : l.length using Nat.strongRecOn generalizing l with
  | ind n ih =>
    cases l with
    | nil => rfl
    | cons c r =>
      have e : replaceWs (c :: r) = (if isWs c then ' ' else c) :: replaceWs r := rfl
      rw [e]
      by_cases h : isWs c = true
      · rw [if_pos h, words_cons_ws _ _ _ (by rfl), words_cons_ws _ _ _ h]
        exact ih r.length (by simp at hn; omega) r rfl
      · have h' : isWs c = false := by simpa using h
        rw [if_neg h, words_cons_not _ _ _ h', words_cons_not _ _ _ h', (hmap r).1, (hmap r).2]
        congr 1
        refine ih _ ?_ _ rfl
        have := (List.dropWhile_suffix (l := r) (fun x => !isWs x)).length_le
        simp at hn; omega

/-- **C03** (idempotence). -/
theorem C03_normalize_idempotent (s t : String) (mode : WhiteSpace) (h : normalize s mode = .ok t) :
    normalize t mode = .ok t := by
  rw [C01_normalize_spec] at h
  cases h
  rw [C01_normalize_spec]
  congr 2
  rw [String.toList_ofList]
  cases mode with
  | preserve => rfl
  | replace =>
    show replaceWs (replaceWs _) = replaceWs _
    simp only [replaceWs, List.map_map]
    apply List.map_congr_left
    intro c _
    by_cases h : isWs c = true
    · simp [h]
    · simp [h]
  | collapse =>
    show collapseWs (collapseWs _) = collapseWs _
    unfold collapseWs
    rw [words_intercalate _ (collapse_words_noWs _)]

/-- **C03** (modes compose): collapsing replaced text is collapsing the text. -/
theorem C03_collapse_after_replace (s t : String) (h : normalize s .replace = .ok t) :
    normalize t .collapse = normalize s .collapse := by
  rw [C01_normalize_spec] at h
  cases h
  rw [C01_normalize_spec, C01_normalize_spec, String.toList_ofList]
  congr 2
  show collapseWs (replaceWs _) = collapseWs _
  unfold collapseWs
  rw [words_replaceWs]

/-- **C03** (replace keeps the number of characters). -/
theorem C03_replace_length (s t : String) (h : normalize s .replace = .ok t) : t.length = s.length := by
  rw [C01_normalize_spec] at h
  cases h
  simp [normalized, replaceWs, ← String.length_toList]

/-- The hypotheses are met by every text: normalization never fails (C01).  So e.g. -/
example : normalize "   a b" .replace = .ok "   a b" ∧ normalize "   a b" .collapse = normalize " \t a\nb" .collapse ∧ "   a b".length = " \t a\nb".length := by
  have h : normalize " \t a\nb" .replace = .ok "   a b" := by
    rw [C01_normalize_spec]; rfl
  exact ⟨C03_normalize_idempotent _ _ _ h, C03_collapse_after_replace _ _ h, C03_replace_length _ _ h⟩

/-- Adjacent pairs of a list. -/
def Spec.adjacent {α : Type} (l : List α) : List (α × α) := l.zip l.tail

theorem intercalate_shape (ws : List (List Char)) (h : ∀ w ∈ ws, w ≠ [] ∧ ∀ c ∈ w, isWs c = false) :
    (∀ c ∈ List.intercalate [' '] ws, isWs c = true → c = ' ') ∧
    (∀ x, (List.intercalate [' '] ws).head? = some x → isWs x = false) ∧
    (∀ x, (List.intercalate [' '] ws).getLast? = some x → isWs x = false) ∧
    (∀ p ∈ adjacent (List.intercalate [' '] ws), ¬ (p.1 = ' ' ∧ p.2 = ' ')) ∧
    (ws ≠ [] → List.intercalate [' '] ws ≠ []) := by
  have noadj : ∀ w : List Char, (∀ c ∈ w, isWs c = false) → ∀ rest : List Char,
      (∀ p ∈ adjacent rest, ¬ (p.1 = ' ' ∧ p.2 = ' ')) →
      ∀ p ∈ adjacent (w ++ rest), ¬ (p.1 = ' ' ∧ p.2 = ' ') := by
    intro w
    induction w with
    | nil => intro _ rest h; exact h
    | cons a w ih =>
      intro hw rest hr p hp
      have hi := ih (fun c hc => hw c (by simp [hc])) rest hr
      have ha : a ≠ ' ' := by
        intro h; have := hw a (by simp); rw [h] at this; cases this
      cases hx : w ++ rest with
      | nil => simp [adjacent, hx] at hp
      | cons b l =>
        simp only [adjacent, List.cons_append, hx, List.tail_cons, List.zip_cons_cons, List.mem_cons] at hp
        rcases hp with hp | hp
        · subst hp; intro hc; exact ha hc.1
        · refine hi p ?_
          rw [hx]; exact hp
  induction ws with
  | nil => simp [adjacent]
  | cons w ws ih =>
    obtain ⟨h1, h2⟩ := h w (by simp)
    obtain ⟨i1, i2, i3, i4, i5⟩ := ih (fun x hx => h x (by simp [hx]))
    cases ws with
    | nil =>
      have e : List.intercalate [' '] [w] = w := by simp
      rw [e]
      refine ⟨?_, ?_, ?_, ?_, fun _ => h1⟩
      · intro c hc hw; rw [h2 c hc] at hw; cases hw
      · intro x hx; exact h2 x (List.mem_of_mem_head? hx)
      · intro x hx; exact h2 x (List.mem_of_getLast? hx)
      · have := noadj w h2 [] (by simp [adjacent])
        simpa using this
    | cons w2 ws =>
      have e : List.intercalate [' '] (w :: w2 :: ws) = w ++ ' ' :: List.intercalate [' '] (w2 :: ws) := by
        simp [List.intercalate]
      rw [e]
      have hne := i5 (by simp)
      refine ⟨?_, ?_, ?_, ?_, fun _ => by simp⟩
      · intro c hc hw
        simp only [List.mem_append, List.mem_cons] at hc
        rcases hc with hc | hc | hc
        · rw [h2 c hc] at hw; cases hw
        · exact hc
        · exact i1 c hc hw
      · intro x hx
        cases w with
        | nil => exact absurd rfl h1
        | cons a w => simp at hx; subst hx; exact h2 a (by simp)
      · intro x hx
        refine i3 x ?_
        rw [← hx, List.getLast?_append, List.getLast?_cons]
        cases hg : (List.intercalate [' '] (w2 :: ws)).getLast? with
        | none => exact absurd (List.getLast?_eq_none_iff.mp hg) hne
        | some y => simp
      · apply noadj w h2
        intro p hp
        cases hx : List.intercalate [' '] (w2 :: ws) with
        | nil => exact absurd hx hne
        | cons b l =>
          rw [hx] at hp i4
          simp only [adjacent, List.tail_cons, List.zip_cons_cons, List.mem_cons] at hp
          rcases hp with hp | hp
          · subst hp
            intro hc
            have := i2 b (by rw [hx]; rfl)
            simp only at hc
            rw [hc.2] at this; cases this
          · exact i4 p hp

/-- **C03** (shape of collapsed text): the only white space is SPACE, never first or last and never
twice in a row. -/
theorem C03_collapse_shape (s t : String) (h : normalize s .collapse = .ok t) :
    (∀ c ∈ t.toList, c ≠ '\t' ∧ c ≠ '\n' ∧ c ≠ '\r') ∧
    t.toList.head? ≠ some ' ' ∧ t.toList.getLast? ≠ some ' ' ∧
    (' ', ' ') ∉ adjacent t.toList := by
  rw [C01_normalize_spec] at h
  cases h
  rw [String.toList_ofList]
  obtain ⟨i1, i2, i3, i4, _⟩ := intercalate_shape (words isWs s.toList) (collapse_words_noWs _)
  refine ⟨?_, ?_, ?_, ?_⟩
  · intro c hc
    refine ⟨?_, ?_, ?_⟩ <;> (intro he; subst he; have := i1 _ hc rfl; revert this; decide)
  · intro hh; have := i2 _ hh; revert this; decide
  · intro hh; have := i3 _ hh; revert this; decide
  · intro hm; exact i4 _ hm ⟨rfl, rfl⟩

example : normalize "\t\tx \ny\r" .collapse = .ok "x y" := by
  rw [C01_normalize_spec]
  simp [normalized, collapseWs, words_cons_ws, words_cons_not, words_nil, isWs, List.intercalate]

end SX
