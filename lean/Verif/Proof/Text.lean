import Verif.Model.Text
import Verif.Spec.Text
import Verif.Proof.NormalizeUtf8

namespace SX
open Spec

theorem trimSet_eq (c : Char) : trimSet c = isWs c := by
  unfold trimSet isWs
  simp only [List.contains_cons, List.contains_nil, Bool.or_false]
  rw [Bool.eq_iff_iff]
  simp

theorem trimSet_eq' : trimSet = isWs := funext trimSet_eq

theorem trim_padded (s : List Char) : Padded s (trimMatches trimSet s) := by
  rw [trimSet_eq']
  refine ⟨s.takeWhile isWs, ((s.dropWhile isWs).reverse.takeWhile isWs).reverse, ?_, ?_, ?_⟩
  · unfold trimMatches
    rw [List.append_assoc, ← List.reverse_append, List.takeWhile_append_dropWhile, List.reverse_reverse,
      List.takeWhile_append_dropWhile]
  · intro c hc
    have := List.all_takeWhile (l := s) (p := isWs)
    rw [List.all_eq_true] at this
    exact this c hc
  · intro c hc
    have := List.all_takeWhile (l := (s.dropWhile isWs).reverse) (p := isWs)
    rw [List.all_eq_true] at this
    exact this c (by simpa using hc)

theorem dropWhile_append_all {α} (p : α → Bool) (a b : List α) (h : ∀ c ∈ a, p c = true) :
    (a ++ b).dropWhile p = b.dropWhile p := by
  induction a with
  | nil => rfl
  | cons x a ih =>
    rw [List.cons_append, List.dropWhile_cons_of_pos (h x (by simp))]
    exact ih (fun c hc => h c (by simp [hc]))

theorem dropWhile_head_false {α} (p : α → Bool) (b : List α) (h : ∀ x, b.head? = some x → p x = false) :
    b.dropWhile p = b := by
  cases b with
  | nil => rfl
  | cons x b => exact List.dropWhile_cons_of_neg (by simp [h x rfl])

theorem trim_of_padded (s core : List Char) (h : Padded s core) (hne : core ≠ [])
    (hh : ∀ x, core.head? = some x → isWs x = false) (hl : ∀ x, core.getLast? = some x → isWs x = false) :
    trimMatches trimSet s = core := by
  obtain ⟨pre, post, e, h1, h2⟩ := h
  rw [trimSet_eq']
  unfold trimMatches
  subst e
  have hc : (core ++ post).dropWhile isWs = core ++ post := by
    apply dropWhile_head_false
    intro x hx
    cases core with
    | nil => exact absurd rfl hne
    | cons a c => simp at hx; subst hx; exact hh a rfl
  have hr : core.reverse.dropWhile isWs = core.reverse := by
    apply dropWhile_head_false
    intro x hx; rw [List.head?_reverse] at hx; exact hl x hx
  rw [List.append_assoc, dropWhile_append_all _ _ _ h1, hc, List.reverse_append,
    dropWhile_append_all, hr, List.reverse_reverse]
  intro c hc; exact h2 c (by simpa using hc)

/-! ### Decimal literals -/

theorem isDecDigit_iff (c : Char) : isDecDigit c ↔ 48 ≤ c.toNat ∧ c.toNat ≤ 57 := by
  unfold isDecDigit
  simp only [List.mem_cons, List.not_mem_nil, or_false, char_eq_iff]
  show (c.toNat = 48 ∨ c.toNat = 49 ∨ c.toNat = 50 ∨ c.toNat = 51 ∨ c.toNat = 52 ∨ c.toNat = 53 ∨
    c.toNat = 54 ∨ c.toNat = 55 ∨ c.toNat = 56 ∨ c.toNat = 57) ↔ _
  omega

theorem toDigit_eq (c : Char) (d : Nat) : toDigit c = some d ↔ isDecDigit c ∧ d = c.toNat - '0'.toNat := by
  rw [isDecDigit_iff]
  unfold toDigit
  show (if 48 ≤ c.toNat ∧ c.toNat ≤ 57 then some (c.toNat - 48) else none) = some d ↔ _ ∧ d = c.toNat - 48
  split
  · simp_all; omega
  · simp; omega

theorem decDigit_not_ws (c : Char) (h : isDecDigit c) : isWs c = false := by
  rw [isDecDigit_iff] at h
  cases hw : isWs c with
  | false => rfl
  | true =>
    have := (isWs_iff c).mp hw
    have e : c.val.toNat = c.toNat := rfl
    rw [e] at this
    omega

/-- Continue a decimal value. -/
def decFrom (a : Nat) (ds : List Char) : Nat := ds.foldl (fun a c => 10 * a + (c.toNat - '0'.toNat)) a

theorem decFrom_ge (ds : List Char) (a : Nat) : a ≤ decFrom a ds := by
  induction ds generalizing a with
  | nil => exact Nat.le_refl a
  | cons c ds ih =>
    have := ih (10 * a + (c.toNat - '0'.toNat))
    have e : decFrom a (c :: ds) = decFrom (10 * a + (c.toNat - '0'.toNat)) ds := rfl
    omega

theorem min_nonpos (t : IntTy) : t.min ≤ 0 := by
  unfold IntTy.min
  split
  · have : (0 : Int) ≤ ((2 ^ (t.bits - 1) : Nat) : Int) := Int.natCast_nonneg _
    omega
  · exact Int.le_refl 0

theorem max_nonneg (t : IntTy) : 0 ≤ t.max := by
  unfold IntTy.max
  have h1 : 1 ≤ 2 ^ (t.bits - 1) := Nat.one_le_two_pow
  have h2 : 1 ≤ 2 ^ t.bits := Nat.one_le_two_pow
  split <;> omega

theorem digitLoop_pos (t : IntTy) (ds : List Char) (a : Nat) (n : Int) (ha : (a : Int) ≤ t.max) :
    digitLoop t false ds a = some n ↔
      (∀ c ∈ ds, isDecDigit c) ∧ n = decFrom a ds ∧ (decFrom a ds : Int) ≤ t.max := by
  induction ds generalizing a with
  | nil =>
    simp [digitLoop, decFrom]
    constructor
    · intro h; exact ⟨h.symm, ha⟩
    · intro h; exact h.1.symm
  | cons c ds ih =>
    have e : decFrom a (c :: ds) = decFrom (10 * a + (c.toNat - '0'.toNat)) ds := rfl
    have hge := decFrom_ge ds (10 * a + (c.toNat - '0'.toNat))
    have hmin := min_nonpos t
    unfold digitLoop
    cases hd : toDigit c with
    | none =>
      simp only
      constructor
      · intro h; cases h
      · intro h
        have := (toDigit_eq c (c.toNat - '0'.toNat)).mpr ⟨h.1 c (by simp), rfl⟩
        rw [hd] at this; cases this
    | some d =>
      obtain ⟨hd1, hd2⟩ := (toDigit_eq c d).mp hd
      simp only [IntTy.checked, Bool.false_eq_true, if_false]
      rw [← hd2] at e hge
      rw [e]
      by_cases h1 : (a : Int) * 10 ≤ t.max
      · rw [if_pos ⟨by omega, h1⟩]
        simp only
        by_cases h2 : (a : Int) * 10 + d ≤ t.max
        · rw [if_pos ⟨by omega, h2⟩]
          simp only
          have e2 : ((a : Int) * 10 + d) = ((10 * a + d : Nat) : Int) := by omega
          rw [e2, ih (10 * a + d) (by omega)]
          simp [hd1]
        · rw [if_neg (by omega)]
          simp; omega
      · rw [if_neg (by omega)]
        simp; omega

theorem digitLoop_neg (t : IntTy) (ds : List Char) (a : Nat) (n : Int) (ha : t.min ≤ -(a : Int)) :
    digitLoop t true ds (-(a : Int)) = some n ↔
      (∀ c ∈ ds, isDecDigit c) ∧ n = -(decFrom a ds : Int) ∧ t.min ≤ -(decFrom a ds : Int) := by
  induction ds generalizing a with
  | nil =>
    simp [digitLoop, decFrom]
    constructor
    · intro h; exact ⟨h.symm, ha⟩
    · intro h; exact h.1.symm
  | cons c ds ih =>
    have e : decFrom a (c :: ds) = decFrom (10 * a + (c.toNat - '0'.toNat)) ds := rfl
    have hge := decFrom_ge ds (10 * a + (c.toNat - '0'.toNat))
    have hmax := max_nonneg t
    unfold digitLoop
    cases hd : toDigit c with
    | none =>
      simp only
      constructor
      · intro h; cases h
      · intro h
        have := (toDigit_eq c (c.toNat - '0'.toNat)).mpr ⟨h.1 c (by simp), rfl⟩
        rw [hd] at this; cases this
    | some d =>
      obtain ⟨hd1, hd2⟩ := (toDigit_eq c d).mp hd
      simp only [IntTy.checked, if_true]
      rw [← hd2] at e hge
      rw [e]
      by_cases h1 : t.min ≤ -(a : Int) * 10
      · rw [if_pos ⟨h1, by omega⟩]
        simp only
        by_cases h2 : t.min ≤ -(a : Int) * 10 - d
        · rw [if_pos ⟨h2, by omega⟩]
          simp only
          have e2 : (-(a : Int) * 10 - d) = -((10 * a + d : Nat) : Int) := by omega
          rw [e2, ih (10 * a + d) (by omega)]
          simp [hd1]
        · rw [if_neg (by omega)]
          simp; omega
      · rw [if_neg (by omega)]
        simp; omega

theorem not_digit_plus : ¬ isDecDigit '+' := by rw [isDecDigit_iff]; decide
theorem not_digit_minus : ¬ isDecDigit '-' := by rw [isDecDigit_iff]; decide

theorem intLiteral_minus_iff (sg : Bool) (ds : List Char) (n : Int) :
    IntLiteral sg ('-' :: ds) n ↔ sg = true ∧ ds ≠ [] ∧ (∀ c ∈ ds, isDecDigit c) ∧ n = -(decValue ds : Int) := by
  constructor
  · intro h
    cases h with
    | plain _ _ h => exact absurd (h '-' (by simp)) not_digit_minus
    | minus _ ne h s => exact ⟨s, ne, h, rfl⟩
  · rintro ⟨s, ne, h, rfl⟩
    exact .minus ds ne h s

theorem intLiteral_plus_iff (sg : Bool) (ds : List Char) (n : Int) :
    IntLiteral sg ('+' :: ds) n ↔ ds ≠ [] ∧ (∀ c ∈ ds, isDecDigit c) ∧ n = (decValue ds : Int) := by
  constructor
  · intro h
    cases h with
    | plain _ _ h => exact absurd (h '+' (by simp)) not_digit_plus
    | plus _ ne h => exact ⟨ne, h, rfl⟩
  · rintro ⟨ne, h, rfl⟩
    exact .plus ds ne h

theorem intFromStr_iff (t : IntTy) (s : List Char) (n : Int) :
    intFromStr t s = some n ↔ IntLiteral t.signed s n ∧ t.min ≤ n ∧ n ≤ t.max := by
  have hmin := min_nonpos t
  have hmax := max_nonneg t
  have pos := digitLoop_pos t
  have neg := digitLoop_neg t
  unfold intFromStr
  split
  · simp; intro h; cases h with | plain _ ne _ => exact absurd rfl ne
  · rw [intLiteral_plus_iff]; simp
  · rw [intLiteral_minus_iff]; simp
  · rename_i ds hne
    rw [intLiteral_plus_iff, show (0 : Int) = ((0 : Nat) : Int) from rfl, pos ds 0 n hmax]
    have : ds ≠ [] := by intro h; exact hne h
    have e : decValue ds = decFrom 0 ds := rfl
    rw [e]
    constructor
    · rintro ⟨h1, h2, h3⟩; exact ⟨⟨this, h1, h2⟩, by omega, by omega⟩
    · rintro ⟨⟨_, h1, h2⟩, _, h3⟩; exact ⟨h1, h2, by omega⟩
  · rename_i ds hne
    rw [intLiteral_minus_iff]
    have : ds ≠ [] := by intro h; exact hne h
    have e : decValue ds = decFrom 0 ds := rfl
    rw [e]
    cases hs : t.signed with
    | false => simp
    | true =>
      simp only [if_true]
      rw [show (0 : Int) = -((0 : Nat) : Int) from rfl, neg ds 0 n (by omega)]
      constructor
      · rintro ⟨h1, h2, h3⟩; exact ⟨⟨trivial, this, h1, h2⟩, by omega, by omega⟩
      · rintro ⟨⟨_, _, h1, h2⟩, h3, _⟩; exact ⟨h1, h2, by omega⟩
  · rename_i h1 h2 h3 h4 h5
    rw [show (0 : Int) = ((0 : Nat) : Int) from rfl, pos s 0 n hmax]
    have e : decValue s = decFrom 0 s := rfl
    constructor
    · rintro ⟨a1, a2, a3⟩
      refine ⟨?_, by omega, by omega⟩
      rw [a2]
      exact .plain s (fun h => h1 h) a1
    · rintro ⟨hl, _, h6⟩
      cases hl with
      | plain _ _ h => exact ⟨h, rfl, h6⟩
      | plus ds _ _ => exact (h4 ds rfl).elim
      | minus ds _ _ _ => exact (h5 ds rfl).elim

theorem intLiteral_ends (sg : Bool) (s : List Char) (n : Int) (h : IntLiteral sg s n) :
    s ≠ [] ∧ (∀ x, s.head? = some x → isWs x = false) ∧ (∀ x, s.getLast? = some x → isWs x = false) := by
  cases h with
  | plain _ ne h =>
    exact ⟨ne, fun x hx => decDigit_not_ws x (h x (List.mem_of_mem_head? hx)),
      fun x hx => decDigit_not_ws x (h x (List.mem_of_getLast? hx))⟩
  | plus ds ne h =>
    refine ⟨by simp, ?_, ?_⟩
    · intro x hx; simp at hx; subst hx; rfl
    · intro x hx
      rw [← getLast?_suffix ds _ (List.suffix_cons _ _) ne] at hx
      exact decDigit_not_ws x (h x (List.mem_of_getLast? hx))
  | minus ds ne h _ =>
    refine ⟨by simp, ?_, ?_⟩
    · intro x hx; simp at hx; subst hx; rfl
    · intro x hx
      rw [← getLast?_suffix ds _ (List.suffix_cons _ _) ne] at hx
      exact decDigit_not_ws x (h x (List.mem_of_getLast? hx))

theorem natDigits_spec (n : Nat) :
    natDigits n ≠ [] ∧ (∀ c ∈ natDigits n, isDecDigit c) ∧ decValue (natDigits n) = n := by
  have hd : ∀ d, d < 10 → (Char.ofNat (48 + d)).toNat = 48 + d := by
    intro d hd
    have : d = 0 ∨ d = 1 ∨ d = 2 ∨ d = 3 ∨ d = 4 ∨ d = 5 ∨ d = 6 ∨ d = 7 ∨ d = 8 ∨ d = 9 := by omega
    rcases this with h | h | h | h | h | h | h | h | h | h <;> subst h <;> rfl
  induction n using Nat.strongRecOn with
  | ind n ih =>
    unfold natDigits
    by_cases h : n < 10
    · rw [if_pos h]
      refine ⟨by simp, ?_, ?_⟩
      · intro c hc
        simp only [List.mem_singleton] at hc
        subst hc
        rw [isDecDigit_iff, hd n h]; omega
      · show 10 * 0 + ((Char.ofNat (48 + n)).toNat - 48) = n
        rw [hd n h]; omega
    · rw [if_neg h]
      obtain ⟨i1, i2, i3⟩ := ih (n / 10) (by omega)
      have hm : n % 10 < 10 := by omega
      refine ⟨by simp, ?_, ?_⟩
      · intro c hc
        simp only [List.mem_append, List.mem_singleton] at hc
        rcases hc with hc | hc
        · exact i2 c hc
        · subst hc; rw [isDecDigit_iff, hd _ hm]; omega
      · unfold decValue at i3 ⊢
        rw [List.foldl_append, i3]
        show 10 * (n / 10) + ((Char.ofNat (48 + n % 10)).toNat - 48) = n
        rw [hd _ hm]; omega

theorem intToString_literal (t : IntTy) (n : Int) (h1 : t.min ≤ n) :
    IntLiteral t.signed (intToString n).toList n := by
  unfold intToString
  rw [String.toList_ofList]
  obtain ⟨d1, d2, d3⟩ := natDigits_spec n.natAbs
  by_cases h : n < 0
  · rw [if_pos h]
    have hs : t.signed = true := by
      unfold IntTy.min at h1
      cases hs : t.signed with
      | true => rfl
      | false => rw [hs] at h1; simp at h1; omega
    have := IntLiteral.minus (signed := t.signed) _ d1 d2 hs
    rw [d3] at this
    rwa [show -((n.natAbs : Nat) : Int) = n by omega] at this
  · rw [if_neg h]
    have := IntLiteral.plain (signed := t.signed) _ d1 d2
    rw [d3] at this
    rwa [show ((n.natAbs : Nat) : Int) = n by omega] at this

theorem range_iff (t : IntTy) (n : Int) : (t.min ≤ n ∧ n ≤ t.max) ↔ inRange t.signed t.bits n := by
  have e : ∀ k : Nat, ((2 ^ k : Nat) : Int) = (2 : Int) ^ k := by intro k; simp
  unfold IntTy.min IntTy.max inRange
  cases t.signed <;> simp only [if_true, if_false, Bool.false_eq_true, e] <;> omega

end SX
