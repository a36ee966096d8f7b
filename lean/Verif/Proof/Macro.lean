import Verif.Spec.Macro
import Verif.Proof.Namespaces

/-
The front end of the derive macros.
-/
namespace SX
open Spec

/-! ### Strings -/

theorem isRustWs_iff (c : Char) : isRustWs c = true ↔ c.toNat ∈ unicodeWs := by
  simp only [isRustWs, unicodeWs, Bool.or_eq_true, Bool.and_eq_true, decide_eq_true_eq, beq_iff_eq, List.mem_cons, List.not_mem_nil, or_false]
  omega

theorem blank_iff (l : List Char) : AllBlank l ↔ ∀ c ∈ l, isRustWs c = true := by
  unfold AllBlank
  constructor
  · intro h c hc; exact (isRustWs_iff c).mpr (h c hc)
  · intro h c hc; exact (isRustWs_iff c).mp (h c hc)

theorem dropWhile_all_m {α : Type} (p : α → Bool) (a r : List α) (ha : ∀ c ∈ a, p c = true) (hr : ∀ c, r.head? = some c → p c = false) :
    (a ++ r).dropWhile p = r := by
  induction a with
  | nil =>
    cases r with
    | nil => rfl
    | cons c r => simp [List.dropWhile_cons, hr c rfl]
  | cons c a ih =>
    simp only [List.cons_append, List.dropWhile_cons, ha c (by simp), if_true]
    exact ih fun x hx => ha x (by simp [hx])

theorem dropWhile_head {α : Type} (p : α → Bool) (l : List α) (c : α) (h : (l.dropWhile p).head? = some c) : p c = false := by
  induction l with
  | nil => simp at h
  | cons x l ih =>
    rw [List.dropWhile_cons] at h
    split at h
    · exact ih h
    · rename_i hx
      simp at h
      rw [← h]; simpa using hx

theorem trimMatches_of (p : Char → Bool) (s a t b : List Char) (hs : s = a ++ t ++ b) (ha : ∀ c ∈ a, p c = true) (hb : ∀ c ∈ b, p c = true)
    (h1 : ∀ c, t.head? = some c → p c = false) (h2 : ∀ c, t.getLast? = some c → p c = false) : trimMatches p s = t := by
  unfold trimMatches
  rw [hs]
  cases t with
  | nil =>
    rw [show a ++ [] ++ b = (a ++ b) ++ [] by simp, dropWhile_all_m p (a ++ b) [] _ (by simp)]
    · rfl
    · intro c hc
      rcases List.mem_append.mp hc with h | h
      · exact ha c h
      · exact hb c h
  | cons x t =>
    rw [List.append_assoc, dropWhile_all_m p a _ ha (by simpa using h1), List.reverse_append, dropWhile_all_m p]
    · simp
    · intro c hc; exact hb c (by simpa using hc)
    · intro c hc
      apply h2
      rw [List.head?_reverse] at hc
      exact hc

theorem trimMatches_spec (p : Char → Bool) (s : List Char) :
    (∃ a b, s = a ++ trimMatches p s ++ b ∧ (∀ c ∈ a, p c = true) ∧ (∀ c ∈ b, p c = true)) ∧
    (∀ c, (trimMatches p s).head? = some c → p c = false) ∧ ∀ c, (trimMatches p s).getLast? = some c → p c = false := by
  have hd : s.dropWhile p = trimMatches p s ++ ((s.dropWhile p).reverse.takeWhile p).reverse := by
    unfold trimMatches
    rw [← List.reverse_append, List.takeWhile_append_dropWhile, List.reverse_reverse]
  refine ⟨⟨s.takeWhile p, ((s.dropWhile p).reverse.takeWhile p).reverse, ?_, ?_, ?_⟩, ?_, ?_⟩
  · rw [List.append_assoc, ← hd, List.takeWhile_append_dropWhile]
  · intro c hc; exact List.all_eq_true.mp List.all_takeWhile c hc
  · intro c hc; exact List.all_eq_true.mp List.all_takeWhile c (by simpa using hc)
  · intro c hc
    apply dropWhile_head p s
    rw [hd]
    cases ht : trimMatches p s with
    | nil => rw [ht] at hc; simp at hc
    | cons x l => rw [ht] at hc; simpa using hc
  · intro c hc
    unfold trimMatches at hc
    rw [List.getLast?_reverse] at hc
    exact dropWhile_head p _ _ hc

theorem not_ws (c : Char) : c.toNat ∉ unicodeWs ↔ isRustWs c = false := by
  rw [← isRustWs_iff]; simp

theorem isTrim_iff (s t : String) : IsTrim s t ↔ rustTrim s = t := by
  unfold IsTrim rustTrim
  simp only [blank_iff, not_ws]
  constructor
  · rintro ⟨⟨a, b, hs, ha, hb⟩, h1, h2⟩
    rw [trimMatches_of isRustWs _ a t.toList b hs ha hb h1 h2, String.ofList_toList]
  · intro h
    rw [← h]
    simp only [String.toList_ofList]
    exact trimMatches_spec isRustWs s.toList

theorem splitColonL_some (l a b : List Char) :
    splitColonL l = some (a, b) ↔ l = a ++ [':', ' '] ++ b ∧ ∀ a' b', l = a' ++ [':', ' '] ++ b' → a.length ≤ a'.length := by
  induction l generalizing a with
  | nil => simp [splitColonL]
  | cons c r ih =>
    unfold splitColonL
    split
    · rename_i h
      cases h
    · rename_i r' h
      injection h with h1 h2
      subst h1; subst h2
      constructor
      · intro h
        simp only [Option.some.injEq, Prod.mk.injEq] at h
        obtain ⟨rfl, rfl⟩ := h
        exact ⟨by simp, by simp⟩
      · rintro ⟨h, hm⟩
        have := hm [] r' (by simp)
        have ha : a = [] := List.length_eq_zero_iff.mp (by simpa using this)
        subst ha
        simp at h
        simp [h]
    · rename_i c' r0 hn h
      injection h with h1 h2
      subst h1; subst h2
      constructor
      · intro h
        cases hr : splitColonL r with
        | none => simp [hr] at h
        | some x =>
          simp only [hr, Option.map_some, Option.some.injEq, Prod.mk.injEq] at h
          obtain ⟨rfl, rfl⟩ := h
          have := (ih x.1).mp (by rw [hr])
          refine ⟨by rw [this.1]; simp, ?_⟩
          intro a' b' he
          cases a' with
          | nil =>
            simp at he
            exact absurd he.2 (hn _ he.1)
          | cons y a' =>
            simp only [List.cons_append, List.cons.injEq] at he
            have := this.2 a' b' (by simpa using he.2)
            simp only [List.length_cons]; omega
      · rintro ⟨he, hm⟩
        cases a with
        | nil =>
          simp at he
          exact absurd he.2 (hn _ he.1)
        | cons y a =>
          simp only [List.cons_append, List.cons.injEq] at he
          have : splitColonL r = some (a, b) := by
            rw [ih a]
            refine ⟨by simpa using he.2, ?_⟩
            intro a' b' hr
            have := hm (c :: a') b' (by rw [hr]; simp)
            simp only [List.length_cons] at this; omega
          rw [this, he.1]
          rfl

theorem splitColonL_none (l : List Char) : splitColonL l = none ↔ ∀ a b, l ≠ a ++ [':', ' '] ++ b := by
  induction l with
  | nil => simp [splitColonL]
  | cons c r ih =>
    unfold splitColonL
    split
    · rename_i h
      cases h
    · rename_i r' h
      injection h with h1 h2
      subst h1; subst h2
      simp only [reduceCtorEq, false_iff]
      intro h
      exact h [] r' (by simp)
    · rename_i c' r0 hn h
      injection h with h1 h2
      subst h1; subst h2
      rw [Option.map_eq_none_iff, ih]
      constructor
      · intro h a b he
        cases a with
        | nil =>
          simp at he
          exact hn _ he.1 he.2
        | cons y a =>
          simp only [List.cons_append, List.cons.injEq] at he
          exact h a b (by simpa using he.2)
      · intro h a b he
        exact h (c :: a) b (by rw [he]; simp)

theorem splitColon_some (s a b : String) : splitColon s = some (a, b) ↔ FirstSplit s a b := by
  have key := splitColonL_some s.toList a.toList b.toList
  have : splitColon s = some (a, b) ↔ splitColonL s.toList = some (a.toList, b.toList) := by
    unfold splitColon
    cases hl : splitColonL s.toList with
    | none => simp
    | some x =>
      simp only [Option.map_some, Option.some.injEq, Prod.mk.injEq]
      constructor
      · rintro ⟨rfl, rfl⟩; simp
      · intro h; rw [h]; simp
  rw [this, key]
  unfold FirstSplit Split
  refine and_congr Iff.rfl ⟨fun h a' b' => h a'.toList b'.toList, fun h a' b' => ?_⟩
  have := h (String.ofList a') (String.ofList b')
  simpa using this

theorem splitColon_none (s : String) : splitColon s = none ↔ ∀ a b, ¬ Split s a b := by
  unfold splitColon
  rw [Option.map_eq_none_iff, splitColonL_none]
  unfold Split
  constructor
  · intro h a b; exact h a.toList b.toList
  · intro h a b he
    exact h (String.ofList a) (String.ofList b) (by simpa using he)

theorem xmlish_iff (s : String) : (s.toList.take 3 == "xml".toList) = true ↔ Xmlish s := by
  unfold Xmlish
  rw [beq_iff_eq, show "xml".toList = ['x', 'm', 'l'] from rfl]
  cases s.toList with
  | nil => simp
  | cons a l =>
    cases l with
    | nil => simp
    | cons b l =>
      cases l with
      | nil => simp
      | cons c l => simp

theorem rustTrim_idem (s : String) : rustTrim (rustTrim s) = rustTrim s := by
  rw [← isTrim_iff]
  have h := (isTrim_iff s (rustTrim s)).mpr rfl
  exact ⟨⟨[], [], by simp, by simp [AllBlank], by simp [AllBlank]⟩, h.2⟩

/-! ### Items -/

theorem attrItems_cons (a : Attr) (l : List Attr) :
    attrItems (a :: l) = (match a with | .list items => items | _ => []) ++ attrItems l := rfl

theorem getMetaItems_spec (l : List Attr) (errs : List MErr) :
    (getMetaItems l errs).1 = attrItems l ∧ ((getMetaItems l errs).2 = [] ↔ errs = [] ∧ AttrsOk l) := by
  induction l generalizing errs with
  | nil => simp [getMetaItems, attrItems, AttrsOk]
  | cons a l ih =>
    cases a with
    | foreign =>
      simp only [getMetaItems, attrItems_cons, List.nil_append]
      exact ⟨(ih errs).1, by rw [(ih errs).2]; simp [AttrsOk]⟩
    | list items =>
      simp only [getMetaItems, attrItems_cons]
      exact ⟨by rw [(ih errs).1], by rw [(ih errs).2]; simp [AttrsOk]⟩
    | notList =>
      simp only [getMetaItems, attrItems_cons, List.nil_append]
      exact ⟨(ih _).1, by rw [(ih _).2]; simp [AttrsOk]⟩
    | invalid =>
      simp only [getMetaItems, attrItems_cons, List.nil_append]
      exact ⟨(ih _).1, by rw [(ih _).2]; simp [AttrsOk]⟩

/-- The last value for a key. -/
def lastVal (key : String) : List NMeta → Option Lit
  | [] => none
  | i :: l => (lastVal key l).or (match i with | .nameValue (some k) x => if k = key then some x else none | _ => none)

theorem lastVal_cons_self (key : String) (x : Lit) (l : List NMeta) :
    lastVal key (.nameValue (some key) x :: l) = (lastVal key l).or (some x) := by simp [lastVal]

theorem lastVal_cons_other (key : String) (i : NMeta) (l : List NMeta) (h : ∀ x, i ≠ .nameValue (some key) x) :
    lastVal key (i :: l) = lastVal key l := by
  conv => lhs; unfold lastVal
  split
  · rename_i k x
    have : k ≠ key := fun e => h x (by rw [e])
    simp [this]
  · simp

theorem lastVal_none (key : String) (l : List NMeta) : lastVal key l = none ↔ NoneOf key l := by
  unfold NoneOf
  induction l with
  | nil => simp [lastVal]
  | cons i l ih =>
    by_cases h : ∃ x, i = .nameValue (some key) x
    · obtain ⟨x, rfl⟩ := h
      rw [lastVal_cons_self]
      simp only [Option.or_eq_none_iff, reduceCtorEq, and_false, List.mem_cons, false_iff]
      exact fun hh => hh x (.inl rfl)
    · have h' : ∀ x, i ≠ .nameValue (some key) x := fun x e => h ⟨x, e⟩
      rw [lastVal_cons_other key i l h', ih]
      constructor
      · intro hh x hx
        rcases List.mem_cons.mp hx with hx | hx
        · exact h' x hx.symm
        · exact hh x hx
      · exact fun hh x hx => hh x (List.mem_cons_of_mem _ hx)

theorem lastVal_some (key : String) (l : List NMeta) (x : Lit) : lastVal key l = some x ↔ LastOf key l x := by
  unfold LastOf
  induction l with
  | nil => simp [lastVal]
  | cons i l ih =>
    constructor
    · intro h
      cases hl : lastVal key l with
      | some y =>
        have hxy : y = x := by
          unfold lastVal at h
          rw [hl] at h
          simpa using h
        subst hxy
        obtain ⟨pre, post, he, hp⟩ := ih.mp hl
        exact ⟨i :: pre, post, by rw [he]; rfl, hp⟩
      | none =>
        by_cases hi : ∃ y, i = .nameValue (some key) y
        · obtain ⟨y, rfl⟩ := hi
          rw [lastVal_cons_self, hl] at h
          simp at h
          subst h
          exact ⟨[], l, rfl, (lastVal_none key l).mp hl⟩
        · rw [lastVal_cons_other key i l (fun y e => hi ⟨y, e⟩), hl] at h
          simp at h
    · rintro ⟨pre, post, he, hp⟩
      cases pre with
      | nil =>
        simp at he
        obtain ⟨rfl, rfl⟩ := he
        rw [lastVal_cons_self, (lastVal_none key l).mpr hp]
        rfl
      | cons j pre =>
        simp only [List.cons_append, List.cons.injEq] at he
        have := ih.mpr ⟨pre, post, he.2, hp⟩
        unfold lastVal
        rw [this]
        rfl

/-- The local name after some items. -/
def newLoc (loc : String) : List NMeta → String
  | [] => loc
  | .nameValue (some "rename") (.str v) :: l => newLoc v l
  | _ :: l => newLoc loc l

theorem newLoc_rename (loc v : String) (l : List NMeta) : newLoc loc (kv "rename" v :: l) = newLoc v l := by simp [newLoc, kv]

theorem newLoc_other (loc : String) (i : NMeta) (l : List NMeta) (h : ∀ v, i ≠ kv "rename" v) : newLoc loc (i :: l) = newLoc loc l := by
  conv => lhs; unfold newLoc
  split
  · simp_all
  · rename_i v l' he
    injection he with h1 h2
    exact absurd h1 (h v)
  · rename_i l' he
    injection he with h1 h2
    rw [h2]

theorem newLoc_spec (loc : String) (l : List NMeta) (h : ∀ x, NMeta.nameValue (some "rename") x ∈ l → ∃ v, x = .str v) :
    LocalName loc l (newLoc loc l) := by
  induction l generalizing loc with
  | nil => exact .inl ⟨by simp [NoneOf], rfl⟩
  | cons i l ih =>
    by_cases hi : ∃ v, i = kv "rename" v
    · obtain ⟨v, rfl⟩ := hi
      rw [newLoc_rename]
      right
      rcases ih v (fun x hx => h x (by simp [hx])) with h1 | h1
      · rw [h1.2]
        exact ⟨[], l, rfl, h1.1⟩
      · obtain ⟨pre, post, he, hp⟩ := h1
        exact ⟨kv "rename" v :: pre, post, congrArg _ he, hp⟩
    · rw [newLoc_other loc i l (fun v e => hi ⟨v, e⟩)]
      rcases ih loc (fun x hx => h x (by simp [hx])) with h1 | h1
      · refine .inl ⟨?_, h1.2⟩
        intro x hx
        rcases List.mem_cons.mp hx with hx | hx
        · obtain ⟨v, hv⟩ := h x (by rw [hx]; simp)
          exact hi ⟨v, by rw [← hx, hv]; rfl⟩
        · exact h1.1 x hx
      · obtain ⟨pre, post, he, hp⟩ := h1
        exact .inr ⟨i :: pre, post, congrArg _ he, hp⟩

/-! ### Declared mappings -/

/-- The mapping an item declares. -/
def itemDecl : NMeta → Option (String × String)
  | .nameValue (some k) (.str v) =>
    if k = "namespace" then
      match splitColon v with
      | some (a, b) => if a.toList.take 3 == "xml".toList then none else some (rustTrim a, rustTrim b)
      | none => some ("", rustTrim v)
    else if k = "default_namespace" then some ("", rustTrim v)
    else none
  | _ => none

theorem firstSplit_unique {v a b a' b' : String} (h : FirstSplit v a b) (h' : FirstSplit v a' b') : a = a' ∧ b = b' := by
  have h1 := (splitColon_some v a b).mpr h
  have h2 := (splitColon_some v a' b').mpr h'
  rw [h1] at h2
  simpa using h2

theorem declares_iff (i : NMeta) (p u : String) : Declares i p u ↔ itemDecl i = some (p, u) := by
  constructor
  · intro h
    cases h with
    | mapping split plain hp hu =>
      rename_i v a b
      rw [isTrim_iff] at hp hu
      have hx : ¬ (a.toList.take 3 == "xml".toList) = true := fun hh => plain ((xmlish_iff a).mp hh)
      simp only [itemDecl, kv, if_true, (splitColon_some v a b).mpr split, hx, hp, hu]
      rfl
    | plain split hu =>
      rename_i v
      rw [isTrim_iff] at hu
      simp only [itemDecl, kv, if_true, (splitColon_none v).mpr split, hu]
    | default hu =>
      rename_i v
      rw [isTrim_iff] at hu
      simp [itemDecl, kv, hu]
  · intro h
    unfold itemDecl at h
    split at h
    · rename_i k v
      split at h
      · rename_i hk
        subst hk
        split at h
        · rename_i a b hs
          split at h
          · simp at h
          · rename_i hx
            simp only [Option.some.injEq, Prod.mk.injEq] at h
            exact .mapping ((splitColon_some v a b).mp hs) (fun hh => hx ((xmlish_iff a).mpr hh)) ((isTrim_iff _ _).mpr h.1)
              ((isTrim_iff _ _).mpr h.2)
        · rename_i hs
          simp only [Option.some.injEq, Prod.mk.injEq] at h
          rw [← h.1]
          exact .plain ((splitColon_none v).mp hs) ((isTrim_iff _ _).mpr h.2)
      · split at h
        · rename_i hk
          subst hk
          simp only [Option.some.injEq, Prod.mk.injEq] at h
          rw [← h.1]
          exact .default ((isTrim_iff _ _).mpr h.2)
        · simp at h
    · simp at h

theorem declares_unique {i : NMeta} {p u p' u' : String} (h : Declares i p u) (h' : Declares i p' u') : p = p' ∧ u = u' := by
  rw [declares_iff] at h h'
  rw [h] at h'
  simpa using h'

/-- An item understood on types. -/
def UndT (i : NMeta) : Prop :=
  (∃ l, i = .nameValue (some "prefix") l) ∨ ∃ k v, k ∈ ["rename", "namespace", "default_namespace"] ∧ i = kv k v

theorem typeItem_cases (s : TypeState) (i : NMeta) :
    (∃ v, i = kv "rename" v ∧ typeItem s i = .ok { s with name := { s.name with loc := v } }) ∨
    (∃ l, i = .nameValue (some "prefix") l ∧ typeItem s i = .ok { s with pfx := some l }) ∨
    (∃ v, i = kv "namespace" v ∧ typeItem s i =
      match addNamespace s.namespaces v s.errs with
      | .ok (m, errs) => .ok { s with namespaces := m, errs := errs }
      | .error f => .error f) ∨
    (∃ v, i = kv "default_namespace" v ∧
      typeItem s i = .ok { s with namespaces := (addDefaultNamespace s.namespaces v s.errs).1,
                                  errs := (addDefaultNamespace s.namespaces v s.errs).2 }) ∨
    (¬ UndT i ∧ ∃ e, typeItem s i = .ok { s with errs := s.errs ++ [e] }) := by
  unfold typeItem
  split
  · exact .inl ⟨_, rfl, rfl⟩
  · exact .inr (.inr (.inr (.inr ⟨by simp [UndT, kv], _, rfl⟩)))
  · exact .inr (.inl ⟨_, rfl, rfl⟩)
  · exact .inr (.inr (.inl ⟨_, rfl, rfl⟩))
  · exact .inr (.inr (.inr (.inr ⟨by simp [UndT, kv], _, rfl⟩)))
  · exact .inr (.inr (.inr (.inl ⟨_, rfl, rfl⟩)))
  · exact .inr (.inr (.inr (.inr ⟨by simp [UndT, kv], _, rfl⟩)))
  · rename_i h1 h2 h3 h4 h5 h6 h7
    refine .inr (.inr (.inr (.inr ⟨?_, _, rfl⟩)))
    rintro (⟨l, rfl⟩ | ⟨k, v, hk, rfl⟩)
    · exact h3 _ rfl
    · simp only [List.mem_cons, List.not_mem_nil, or_false] at hk
      rcases hk with rfl | rfl | rfl
      · exact h1 _ rfl
      · exact h4 _ rfl
      · exact h6 _ rfl

theorem addInternal_spec (m : SMap String) (p u : String) (errs : List MErr) :
    ((addInternal m p u errs).2 = [] ↔ errs = [] ∧ m.get p = none) ∧
    (m.get p = none → (addInternal m p u errs).1 = SMap.insertNew p (rustTrim u) m) ∧
    (m.keys.Nodup → (addInternal m p u errs).1.keys.Nodup) := by
  unfold addInternal
  cases h : m.get p with
  | none =>
    refine ⟨by simp, by simp, ?_⟩
    exact fun hn => SMap.nodup_insertNew m p _ h hn
  | some old => simp

theorem builtIn_iff {v a b : String} (h : FirstSplit v a b) (hx : Xmlish a) :
    BuiltIn v ↔ rustTrim a = "xml" ∧ rustTrim b = xmlNs := by
  constructor
  · rintro ⟨a', b', h', _, h1, h2⟩
    obtain ⟨rfl, rfl⟩ := firstSplit_unique h h'
    exact ⟨(isTrim_iff _ _).mp h1, (isTrim_iff _ _).mp h2⟩
  · rintro ⟨h1, h2⟩
    exact ⟨a, b, h, hx, (isTrim_iff _ _).mpr h1, (isTrim_iff _ _).mpr h2⟩

/-- What one item does to the mappings. -/
structure MapStep (m : SMap String) (errs : List MErr) (i : NMeta) (m' : SMap String) (errs' : List MErr) : Prop where
  errs_iff : errs' = [] ↔ errs = [] ∧ ∀ p u, Declares i p u → m.get p = none
  insert : ∀ p u, Declares i p u → m.get p = none → m' = SMap.insertNew p u m
  keep : (∀ p u, ¬ Declares i p u) → m' = m
  nodup : m.keys.Nodup → m'.keys.Nodup

theorem MapStep.same (m : SMap String) (errs : List MErr) (i : NMeta) (h : ∀ p u, ¬ Declares i p u) : MapStep m errs i m errs where
  errs_iff := ⟨fun e => ⟨e, fun p u hd => absurd hd (h p u)⟩, fun e => e.1⟩
  insert p u hd := absurd hd (h p u)
  keep _ := rfl
  nodup := id

theorem MapStep.add (m : SMap String) (errs : List MErr) (i : NMeta) (p u u0 : String) (h : Declares i p u) (hu : rustTrim u0 = u) :
    MapStep m errs i (addInternal m p u0 errs).1 (addInternal m p u0 errs).2 where
  errs_iff := by
    rw [(addInternal_spec m p u0 errs).1]
    refine and_congr Iff.rfl ⟨fun hg p' u' hd => ?_, fun hg => hg p u h⟩
    rw [(declares_unique hd h).1]; exact hg
  insert p' u' hd hg := by
    obtain ⟨rfl, rfl⟩ := declares_unique hd h
    rw [(addInternal_spec m p' u0 errs).2.1 hg, hu]
  keep hn := absurd h (hn p u)
  nodup := (addInternal_spec m p u0 errs).2.2

theorem addNamespace_spec (m : SMap String) (v : String) (errs : List MErr) :
    (Reserved (kv "namespace" v) ∧ addNamespace m v errs = .error .panic) ∨
    (¬ Reserved (kv "namespace" v) ∧ ∃ m' errs', addNamespace m v errs = .ok (m', errs') ∧ MapStep m errs (kv "namespace" v) m' errs') := by
  unfold addNamespace
  cases hs : splitColon v with
  | none =>
    right
    have hn := (splitColon_none v).mp hs
    refine ⟨?_, _, _, rfl, MapStep.add m errs _ "" (rustTrim v) v (.plain hn ((isTrim_iff _ _).mpr rfl)) rfl⟩
    rintro ⟨v', a, b, he, hf, -⟩
    simp [kv] at he
    subst he
    exact hn a b hf.1
  | some x =>
    obtain ⟨a, b⟩ := x
    have hf := (splitColon_some v a b).mp hs
    simp only
    by_cases hx : (a.toList.take 3 == "xml".toList) = true
    · rw [if_pos hx]
      have hx' := (xmlish_iff a).mp hx
      have hb := builtIn_iff hf hx'
      by_cases hbi : rustTrim a = "xml" ∧ rustTrim b = xmlNs
      · rw [if_pos hbi]
        right
        refine ⟨?_, _, _, rfl, MapStep.same m errs _ ?_⟩
        · rintro ⟨v', a', b', he, hf', hx'', hnb⟩
          simp [kv] at he
          subst he
          exact hnb (hb.mpr hbi)
        · intro p u hd
          rw [declares_iff] at hd
          simp only [itemDecl, kv, if_true, hs, hx] at hd
          simp at hd
      · rw [if_neg hbi]
        exact .inl ⟨⟨v, a, b, rfl, hf, hx', fun hh => hbi (hb.mp hh)⟩, rfl⟩
    · rw [if_neg hx]
      right
      have hx' : ¬ Xmlish a := fun hh => hx ((xmlish_iff a).mpr hh)
      refine ⟨?_, _, _, rfl, MapStep.add m errs _ (rustTrim a) (rustTrim b) b
        (.mapping hf hx' ((isTrim_iff _ _).mpr rfl) ((isTrim_iff _ _).mpr rfl)) rfl⟩
      rintro ⟨v', a', b', he, hf', hx'', -⟩
      simp [kv] at he
      subst he
      rw [(firstSplit_unique hf hf').1] at hx'
      exact hx' hx''

theorem declares_key {i : NMeta} {p u : String} (h : Declares i p u) : ∃ v, i = kv "namespace" v ∨ i = kv "default_namespace" v := by
  cases h with
  | mapping => exact ⟨_, .inl rfl⟩
  | plain => exact ⟨_, .inl rfl⟩
  | default => exact ⟨_, .inr rfl⟩

/-- What one item does on a type. -/
structure TypeStep (s : TypeState) (i : NMeta) (s' : TypeState) : Prop where
  errs_iff : s'.errs = [] ↔ s.errs = [] ∧ UndT i ∧ ∀ p u, Declares i p u → s.namespaces.get p = none
  insert : ∀ p u, Declares i p u → s.namespaces.get p = none → s'.namespaces = SMap.insertNew p u s.namespaces
  keep : (∀ p u, ¬ Declares i p u) → s'.namespaces = s.namespaces
  nodup : s.namespaces.keys.Nodup → s'.namespaces.keys.Nodup
  pfx : s'.pfx = (lastVal "prefix" [i]).or s.pfx
  name : s'.name = { s.name with loc := newLoc s.name.loc [i] }

theorem lastVal_kv (key k v : String) (h : k ≠ key) : lastVal key [kv k v] = none := by simp [lastVal, kv, h]

theorem newLoc_kv (loc k v : String) (h : k ≠ "rename") : newLoc loc [kv k v] = loc := by
  rw [newLoc_other _ _ _ (by intro v' he; simp [kv] at he; exact h he.1)]; rfl

theorem typeItem_spec (s : TypeState) (i : NMeta) :
    (Reserved i ∧ typeItem s i = .error .panic) ∨ (¬ Reserved i ∧ ∃ s', typeItem s i = .ok s' ∧ TypeStep s i s') := by
  rcases typeItem_cases s i with ⟨v, rfl, h⟩ | ⟨l, rfl, h⟩ | ⟨v, rfl, h⟩ | ⟨v, rfl, h⟩ | ⟨hu, e, h⟩
  · have hd : ∀ p u, ¬ Declares (kv "rename" v) p u := by
      intro p u hd
      obtain ⟨w, hw | hw⟩ := declares_key hd <;> simp [kv] at hw
    refine .inr ⟨?_, _, h, ?_⟩
    · rintro ⟨v', a, b, he, -⟩; simp [kv] at he
    · exact { errs_iff := ⟨fun e => ⟨e, .inr ⟨"rename", v, by simp, rfl⟩, fun p u h => absurd h (hd p u)⟩, fun e => e.1⟩
              insert := fun p u h => absurd h (hd p u), keep := fun _ => rfl, nodup := id
              pfx := by rw [lastVal_kv _ _ _ (by decide)]; rfl
              name := by rw [newLoc_rename]; rfl }
  · have hd : ∀ p u, ¬ Declares (.nameValue (some "prefix") l) p u := by
      intro p u hd
      obtain ⟨w, hw | hw⟩ := declares_key hd <;> simp [kv] at hw
    refine .inr ⟨?_, _, h, ?_⟩
    · rintro ⟨v', a, b, he, -⟩; simp [kv] at he
    · exact { errs_iff := ⟨fun e => ⟨e, .inl ⟨l, rfl⟩, fun p u h => absurd h (hd p u)⟩, fun e => e.1⟩
              insert := fun p u h => absurd h (hd p u), keep := fun _ => rfl, nodup := id
              pfx := by rw [lastVal_cons_self]; rfl
              name := by rw [newLoc_other _ _ _ (by simp [kv])]; rfl }
  · rcases addNamespace_spec s.namespaces v s.errs with ⟨hr, ha⟩ | ⟨hr, m', errs', ha, st⟩
    · rw [ha] at h
      exact .inl ⟨hr, h⟩
    · rw [ha] at h
      refine .inr ⟨hr, _, h, ?_⟩
      exact { errs_iff := by
                rw [st.errs_iff]
                exact ⟨fun e => ⟨e.1, .inr ⟨"namespace", v, by simp, rfl⟩, e.2⟩, fun e => ⟨e.1, e.2.2⟩⟩
              insert := st.insert, keep := st.keep, nodup := st.nodup
              pfx := by rw [lastVal_kv _ _ _ (by decide)]; rfl
              name := by rw [newLoc_kv _ _ _ (by decide)] }
  · have st : MapStep s.namespaces s.errs (kv "default_namespace" v) (addDefaultNamespace s.namespaces v s.errs).1
        (addDefaultNamespace s.namespaces v s.errs).2 :=
      MapStep.add _ _ _ "" (rustTrim v) (rustTrim v) (.default ((isTrim_iff _ _).mpr rfl)) (rustTrim_idem v)
    refine .inr ⟨?_, _, h, ?_⟩
    · rintro ⟨v', a, b, he, -⟩; simp [kv] at he
    · exact { errs_iff := by
                rw [st.errs_iff]
                exact ⟨fun e => ⟨e.1, .inr ⟨"default_namespace", v, by simp, rfl⟩, e.2⟩, fun e => ⟨e.1, e.2.2⟩⟩
              insert := st.insert, keep := st.keep, nodup := st.nodup
              pfx := by rw [lastVal_kv _ _ _ (by decide)]; rfl
              name := by rw [newLoc_kv _ _ _ (by decide)] }
  · have hd : ∀ p u, ¬ Declares i p u := by
      intro p u hd
      obtain ⟨w, hw | hw⟩ := declares_key hd
      · exact hu (.inr ⟨_, w, by simp, hw⟩)
      · exact hu (.inr ⟨_, w, by simp, hw⟩)
    refine .inr ⟨?_, _, h, ?_⟩
    · rintro ⟨v', a, b, he, -⟩
      exact hu (.inr ⟨_, v', by simp, he⟩)
    · exact { errs_iff := by simp [hu]
              insert := fun p u h => absurd h (hd p u), keep := fun _ => rfl, nodup := id
              pfx := by
                rw [lastVal_cons_other _ _ _ (fun x hx => hu (.inl ⟨x, hx⟩))]; rfl
              name := by
                rw [newLoc_other _ _ _ (fun v hv => hu (.inr ⟨"rename", v, by simp, hv⟩))]; rfl }

theorem lastVal_cons (key : String) (i : NMeta) (l : List NMeta) : lastVal key (i :: l) = (lastVal key l).or (lastVal key [i]) := by
  by_cases h : ∃ x, i = .nameValue (some key) x
  · obtain ⟨x, rfl⟩ := h
    rw [lastVal_cons_self, lastVal_cons_self]; rfl
  · have h' : ∀ x, i ≠ .nameValue (some key) x := fun x e => h ⟨x, e⟩
    rw [lastVal_cons_other _ _ _ h', lastVal_cons_other _ _ _ h']
    simp [lastVal]

theorem newLoc_cons (loc : String) (i : NMeta) (l : List NMeta) : newLoc loc (i :: l) = newLoc (newLoc loc [i]) l := by
  by_cases h : ∃ v, i = kv "rename" v
  · obtain ⟨x, rfl⟩ := h
    rw [newLoc_rename, newLoc_rename]; rfl
  · have h' : ∀ x, i ≠ kv "rename" x := fun x e => h ⟨x, e⟩
    rw [newLoc_other _ _ _ h', newLoc_other _ _ _ h']; rfl

theorem mapped_cons (i : NMeta) (l : List NMeta) (p u : String) : Mapped (i :: l) p u ↔ Declares i p u ∨ Mapped l p u := by
  unfold Mapped; simp

/-- What the loop over the items of a type does. -/
structure TypeRun (s : TypeState) (l : List NMeta) (s' : TypeState) : Prop where
  errs_iff : s'.errs = [] ↔ s.errs = [] ∧ (∀ i ∈ l, UndT i) ∧ (l.Pairwise fun i j => ∀ p u u', Declares i p u → ¬ Declares j p u') ∧
    ∀ p u, Mapped l p u → s.namespaces.get p = none
  mem : s'.errs = [] → ∀ p u, (p, u) ∈ s'.namespaces ↔ (p, u) ∈ s.namespaces ∨ Mapped l p u
  nodup : s.namespaces.keys.Nodup → s'.namespaces.keys.Nodup
  pfx : s'.pfx = (lastVal "prefix" l).or s.pfx
  name : s'.name = { s.name with loc := newLoc s.name.loc l }

theorem typeLoop_spec (l : List NMeta) (s : TypeState) :
    ((∃ i ∈ l, Reserved i) ∧ typeLoop l s = .error .panic) ∨
    ((∀ i ∈ l, ¬ Reserved i) ∧ ∃ s', typeLoop l s = .ok s' ∧ TypeRun s l s') := by
  induction l generalizing s with
  | nil =>
    refine .inr ⟨by simp, s, rfl, ?_⟩
    exact { errs_iff := by simp [Mapped], mem := by simp [Mapped], nodup := id, pfx := rfl, name := rfl }
  | cons i l ih =>
    simp only [typeLoop]
    rcases typeItem_spec s i with ⟨hr, h⟩ | ⟨hr, s1, h, st⟩
    · rw [h]
      exact .inl ⟨⟨i, by simp, hr⟩, rfl⟩
    · rw [h]
      rcases ih s1 with ⟨⟨j, hj, hrj⟩, h2⟩ | ⟨hr2, s2, h2, run⟩
      · exact .inl ⟨⟨j, by simp [hj], hrj⟩, h2⟩
      · refine .inr ⟨?_, s2, h2, ?_⟩
        · intro j hj
          rcases List.mem_cons.mp hj with hj | hj
          · rw [hj]; exact hr
          · exact hr2 j hj
        · have hget : s1.errs = [] → ∀ p, s1.namespaces.get p = none ↔ s.namespaces.get p = none ∧ ∀ u, ¬ Declares i p u := by
            intro he p
            have hh := (st.errs_iff.mp he).2.2
            by_cases hd : ∃ q u, Declares i q u
            · obtain ⟨q, u, hd⟩ := hd
              rw [st.insert q u hd (hh q u hd), SMap.get_insertNew _ _ _ _ (hh q u hd)]
              by_cases hq : q = p
              · subst hq
                simp only [if_true, reduceCtorEq, false_iff]
                exact fun hx => hx.2 u hd
              · simp only [hq, if_false]
                refine ⟨fun hg => ⟨hg, fun u' hd' => hq (declares_unique hd hd').1⟩, fun hg => hg.1⟩
            · rw [st.keep fun p u h => hd ⟨p, u, h⟩]
              exact ⟨fun hg => ⟨hg, fun u h => hd ⟨p, u, h⟩⟩, fun hg => hg.1⟩
          have hmem : s1.errs = [] → ∀ p u, (p, u) ∈ s1.namespaces ↔ (p, u) ∈ s.namespaces ∨ Declares i p u := by
            intro he p u
            have hh := (st.errs_iff.mp he).2.2
            by_cases hd : ∃ q u, Declares i q u
            · obtain ⟨q, w, hd⟩ := hd
              rw [st.insert q w hd (hh q w hd), SMap.mem_insertNew]
              constructor
              · rintro (hx | hx)
                · simp at hx
                  rw [hx.1, hx.2]; exact .inr hd
                · exact .inl hx
              · rintro (hx | hx)
                · exact .inr hx
                · rw [(declares_unique hx hd).1, (declares_unique hx hd).2]; exact .inl rfl
            · rw [st.keep fun p u h => hd ⟨p, u, h⟩]
              exact ⟨.inl, fun h => h.elim id fun h => absurd ⟨p, u, h⟩ hd⟩
          constructor
          · rw [run.errs_iff]
            constructor
            · rintro ⟨he, hu, hp, hm⟩
              obtain ⟨h1, h2, h3⟩ := st.errs_iff.mp he
              refine ⟨h1, ?_, ?_, ?_⟩
              · intro j hj
                rcases List.mem_cons.mp hj with hj | hj
                · rw [hj]; exact h2
                · exact hu j hj
              · refine List.pairwise_cons.mpr ⟨?_, hp⟩
                intro j hj p u u' hd hd'
                exact ((hget he p).mp (hm p u' ⟨j, hj, hd'⟩)).2 u hd
              · intro p u hmp
                rcases (mapped_cons _ _ _ _).mp hmp with h | h
                · exact h3 p u h
                · exact ((hget he p).mp (hm p u h)).1
            · rintro ⟨h1, h2, h3, h4⟩
              have he : s1.errs = [] := st.errs_iff.mpr ⟨h1, h2 i (by simp), fun p u hd => h4 p u ((mapped_cons _ _ _ _).mpr (.inl hd))⟩
              obtain ⟨h5, h6⟩ := List.pairwise_cons.mp h3
              refine ⟨he, fun j hj => h2 j (by simp [hj]), h6, ?_⟩
              intro p u hmp
              rw [hget he p]
              refine ⟨h4 p u ((mapped_cons _ _ _ _).mpr (.inr hmp)), ?_⟩
              intro u' hd
              obtain ⟨j, hj, hd'⟩ := hmp
              exact h5 j hj p u' u hd hd'
          · intro he p u
            have he1 := (run.errs_iff.mp he).1
            rw [run.mem he, hmem he1, mapped_cons, or_assoc]
          · exact fun hn => run.nodup (st.nodup hn)
          · rw [run.pfx, st.pfx, lastVal_cons "prefix" i l, Option.or_assoc]
          · rw [run.name, st.name, newLoc_cons _ i l]

/-! ### Prefixes -/

/-- The namespace of a prefix, if it can be resolved. -/
def resolve (m : SMap String) (p : String) : Option (Option String) :=
  match m.get p with
  | some u => some (some u)
  | none => if p = "xml" then some (some xmlNs) else if p = "" then some none else none

/-- A map holds the mappings `mapped`. -/
def Holds (m : SMap String) (mapped : String → String → Prop) : Prop := ∀ p u, m.get p = some u ↔ mapped p u

theorem resolve_iff {m : SMap String} {mapped : String → String → Prop} (h : Holds m mapped) (p : String) (ns : Option String) :
    resolve m p = some ns ↔ PrefixNs mapped p ns := by
  unfold resolve PrefixNs
  cases hg : m.get p with
  | some u =>
    have hu := (h p u).mp hg
    have huniq : ∀ u', mapped p u' → u' = u := by
      intro u' h'
      have := (h p u').mpr h'
      rw [hg] at this
      simpa using this.symm
    simp only [Option.some.injEq]
    constructor
    · intro he; exact .inl ⟨u, hu, he.symm⟩
    · rintro (⟨u', h1, h2⟩ | ⟨h1, -⟩)
      · rw [h2, huniq u' h1]
      · exact absurd hu (h1 u)
  | none =>
    have hn : ∀ u, ¬ mapped p u := by
      intro u hm
      rw [(h p u).mpr hm] at hg
      simp at hg
    have hL : (∃ u, mapped p u ∧ ns = some u) ↔ False := ⟨fun ⟨u, h, _⟩ => hn u h, False.elim⟩
    rw [hL]
    simp only [false_or, hn, not_false_eq_true, implies_true, true_and]
    by_cases h1 : p = "xml"
    · subst h1
      rw [if_pos rfl]
      constructor
      · intro h; simp only [Option.some.injEq] at h; exact .inl ⟨rfl, h.symm⟩
      · rintro (h | h)
        · rw [h.2]
        · exact absurd h.1 (by decide)
    · rw [if_neg h1]
      by_cases h2 : p = ""
      · subst h2
        rw [if_pos rfl]
        constructor
        · intro h; simp only [Option.some.injEq] at h; exact .inr ⟨rfl, h.symm⟩
        · rintro (h | h)
          · exact absurd h.1 h1
          · rw [h.2]
      · rw [if_neg h2]
        constructor
        · intro h; simp at h
        · rintro (h | h)
          · exact absurd h.1 h1
          · exact absurd h.1 h2

theorem processPrefix_str (m : SMap String) (s : String) (name : MName) (errs : List MErr) (hn : name.pfx = none) :
    (∃ ns, resolve m (rustTrim s) = some ns ∧ (name.ns = none →
      processPrefix m (.str s) name errs = ({ name with pfx := some (rustTrim s), ns := ns }, errs)) ∧ (processPrefix m (.str s) name errs).2 = errs) ∨
    (resolve m (rustTrim s) = none ∧ ∃ n e, n.loc = name.loc ∧ n.pfx = some (rustTrim s) ∧ processPrefix m (.str s) name errs = (n, errs ++ [e])) := by
  unfold processPrefix resolve
  simp only [hn]
  cases hg : m.get (rustTrim s) with
  | some u => exact .inl ⟨_, rfl, fun _ => rfl, rfl⟩
  | none =>
    simp only
    by_cases h1 : rustTrim s = "xml"
    · rw [if_pos h1, if_pos h1]
      exact .inl ⟨_, rfl, fun _ => rfl, rfl⟩
    · rw [if_neg h1, if_neg h1]
      by_cases h2 : rustTrim s = ""
      · rw [if_neg (show ¬ rustTrim s ≠ "" by simpa using h2), if_pos h2]
        exact .inl ⟨none, rfl, fun h => by rw [← h], rfl⟩
      · rw [if_neg h2, if_pos (by simpa using h2)]
        exact .inr ⟨rfl, { name with pfx := some (rustTrim s) }, _, rfl, rfl, rfl⟩

theorem processPrefix_other (m : SMap String) (name : MName) (errs : List MErr) :
    processPrefix m .other name errs = (name, errs ++ [.notString]) := rfl

theorem processPrefix_again (m : SMap String) (s : String) (name : MName) (errs : List MErr) (p : String) (hn : name.pfx = some p) :
    processPrefix m (.str s) name errs = (name, errs ++ [.duplicatePrefix p (rustTrim s)]) := by
  simp [processPrefix, hn]

theorem processPrefix_loc (m : SMap String) (lit : Lit) (name : MName) (errs : List MErr) : (processPrefix m lit name errs).1.loc = name.loc := by
  unfold processPrefix
  split
  · rfl
  · simp only
    split
    · rfl
    · split
      · rfl
      · repeat' split
        all_goals rfl

theorem nameNs_none {mapped : String → String → Prop} {l : List NMeta} (h : lastVal "prefix" l = none) (ns : Option String) :
    NameNs mapped l ns ↔ ns = none := by
  have h1 := (lastVal_none _ _).mp h
  unfold NameNs
  constructor
  · rintro (h2 | ⟨s, p, h2, -⟩)
    · exact h2.2
    · rw [(lastVal_some _ _ _).mpr h2] at h; simp at h
  · exact fun h => .inl ⟨h1, h⟩

theorem nameNs_some {m : SMap String} {mapped : String → String → Prop} (hm : Holds m mapped) {l : List NMeta} {s : String}
    (h : lastVal "prefix" l = some (.str s)) (ns : Option String) : NameNs mapped l ns ↔ resolve m (rustTrim s) = some ns := by
  have h1 := (lastVal_some _ _ _).mp h
  rw [resolve_iff hm]
  unfold NameNs
  constructor
  · rintro (h2 | ⟨s', p, h2, h3, h4⟩)
    · rw [(lastVal_none _ _).mpr h2.1] at h; simp at h
    · have := (lastVal_some _ _ _).mpr h2
      rw [h] at this
      simp at this
      subst this
      rw [(isTrim_iff _ _).mp h3]; exact h4
  · exact fun h => .inr ⟨s, _, h1, (isTrim_iff _ _).mpr rfl, h⟩

theorem nameNs_other {mapped : String → String → Prop} {l : List NMeta}
    (h : lastVal "prefix" l = some .other) (ns : Option String) : ¬ NameNs mapped l ns := by
  unfold NameNs
  rintro (h2 | ⟨s', p, h2, h3, h4⟩)
  · rw [(lastVal_none _ _).mpr h2.1] at h; simp at h
  · rw [(lastVal_some _ _ _).mpr h2] at h; simp at h

theorem holds_of {m : SMap String} {mapped : String → String → Prop} (hn : m.keys.Nodup) (h : ∀ p u, (p, u) ∈ m ↔ mapped p u) :
    Holds m mapped := fun p u => by
  rw [← h]
  exact ⟨SMap.get_mem, SMap.mem_get hn⟩

theorem elementAttr_spec (ident : String) (attrs : List Attr) (errs : List MErr) :
    ((∃ i ∈ attrItems attrs, Reserved i) ∧ elementAttr ident attrs errs = .error .panic) ∨
    ((∀ i ∈ attrItems attrs, ¬ Reserved i) ∧ ∃ r errs', elementAttr ident attrs errs = .ok (r, errs') ∧
      (errs' = [] ↔ errs = [] ∧ TypeOk attrs) ∧
      (errs' = [] → AttrIs ident attrs r ∧ Holds r.namespaces (Mapped (attrItems attrs)))) := by
  have hg := getMetaItems_spec attrs errs
  unfold elementAttr
  generalize hge : getMetaItems attrs errs = g at hg
  obtain ⟨items, errs1⟩ := g
  simp only at hg ⊢
  obtain ⟨rfl, herr⟩ := hg
  rcases typeLoop_spec (attrItems attrs) { name := .fromIdent ident, namespaces := [], pfx := none, errs := errs1 } with
    ⟨hr, h⟩ | ⟨hr, s, h, run⟩
  · rw [h]; exact .inl ⟨hr, rfl⟩
  · rw [h]
    have hnd : s.namespaces.keys.Nodup := run.nodup (by simp [SMap.keys])
    have hs : s.errs = [] ↔ errs = [] ∧ AttrsOk attrs ∧ (∀ i ∈ attrItems attrs, UndT i) ∧
        (attrItems attrs).Pairwise fun i j => ∀ p u u', Declares i p u → ¬ Declares j p u' := by
      rw [run.errs_iff]
      simp only [SMap.get_nil, implies_true, and_true, herr]
      constructor
      · rintro ⟨⟨a, b⟩, c, d⟩; exact ⟨a, b, c, d⟩
      · rintro ⟨a, b, c, d⟩; exact ⟨⟨a, b⟩, c, d⟩
    have hmem : s.errs = [] → ∀ p u, (p, u) ∈ s.namespaces ↔ Mapped (attrItems attrs) p u := by
      intro he p u
      rw [run.mem he]; simp
    have hhold : s.errs = [] → Holds s.namespaces (Mapped (attrItems attrs)) := fun he => holds_of hnd (hmem he)
    have hloc : s.errs = [] → LocalName ident (attrItems attrs) s.name.loc := by
      intro he
      rw [run.name]
      apply newLoc_spec
      intro x hx
      rcases (hs.mp he).2.2.1 _ hx with ⟨l, hl⟩ | ⟨k, v, _, hk⟩
      · simp at hl
      · simp [kv] at hk; exact ⟨v, hk.2⟩
    have hname : s.name.pfx = none ∧ s.name.ns = none := by rw [run.name]; exact ⟨rfl, rfl⟩
    have hfun : s.errs = [] → ∀ p u u', (p, u) ∈ s.namespaces → (p, u') ∈ s.namespaces → u = u' := by
      intro _ p u u' h1 h2
      have := SMap.mem_get hnd h1
      rw [SMap.mem_get hnd h2] at this
      simpa using this.symm
    have hpfx : s.pfx = lastVal "prefix" (attrItems attrs) := by rw [run.pfx]; simp
    right
    refine ⟨hr, ?_⟩
    dsimp only
    cases hp : s.pfx with
    | none =>
      rw [hp] at hpfx
      refine ⟨_, _, rfl, ?_, ?_⟩
      · rw [hs]
        constructor
        · rintro ⟨a, b, c, d⟩
          exact ⟨a, ⟨b, c, d, ⟨none, (nameNs_none hpfx.symm _).mpr rfl⟩⟩⟩
        · rintro ⟨a, h⟩
          exact ⟨a, h.lists, h.understood, h.distinct⟩
      · intro he
        exact ⟨⟨hloc he, (nameNs_none hpfx.symm _).mpr hname.2, hmem he, hfun he⟩, hhold he⟩
    | some lit =>
      rw [hp] at hpfx
      simp only
      cases lit with
      | other =>
        rw [processPrefix_other]
        refine ⟨_, _, rfl, ?_, ?_⟩
        · simp only [List.append_eq_nil_iff, List.cons_ne_nil, and_false, false_iff, not_and]
          rintro - ⟨-, -, -, ⟨ns, hns⟩⟩
          exact nameNs_other hpfx.symm ns hns
        · simp
      | str v =>
        rcases processPrefix_str s.namespaces v s.name s.errs hname.1 with ⟨ns, h1, h2, h3⟩ | ⟨h1, n, e, h2, h3, h4⟩
        · rw [h2 hname.2]
          refine ⟨_, _, rfl, ?_, ?_⟩
          · rw [hs]
            constructor
            · rintro ⟨a, b, c, d⟩
              exact ⟨a, ⟨b, c, d, ⟨ns, (nameNs_some (hhold (hs.mpr ⟨a, b, c, d⟩)) hpfx.symm _).mpr h1⟩⟩⟩
            · rintro ⟨a, h⟩
              exact ⟨a, h.lists, h.understood, h.distinct⟩
          · intro he
            exact ⟨⟨hloc he, (nameNs_some (hhold he) hpfx.symm _).mpr h1, hmem he, hfun he⟩, hhold he⟩
        · rw [h4]
          refine ⟨_, _, rfl, ?_, ?_⟩
          · simp only [List.append_eq_nil_iff, List.cons_ne_nil, and_false, false_iff, not_and]
            intro a h
            obtain ⟨ns, hns⟩ := h.prefixes
            rw [nameNs_some (hhold (hs.mpr ⟨a, h.lists, h.understood, h.distinct⟩)) hpfx.symm, h1] at hns
            simp at hns
          · simp

/-! ### Names of fields and variants -/

/-- An item understood on fields (with words `W`) or variants. -/
def Und (W : List String) (i : NMeta) : Prop := (∃ w, w ∈ W ∧ i = word w) ∨ ∃ k v, k ∈ ["rename", "prefix"] ∧ i = kv k v

/-- What one item does to a name. -/
def NStep (W : List String) (m : SMap String) (name : MName) (errs : List MErr) (i : NMeta) (name' : MName) (errs' : List MErr) : Prop :=
  (∃ v, i = kv "rename" v ∧ name' = { name with loc := v } ∧ errs' = errs) ∨
  (∃ lit, i = .nameValue (some "prefix") lit ∧ name' = (processPrefix m lit name errs).1 ∧ errs' = (processPrefix m lit name errs).2) ∨
  (∃ w, w ∈ W ∧ i = word w ∧ name' = name ∧ errs' = errs) ∨
  (¬ Und W i ∧ (∀ x, i ≠ .nameValue (some "prefix") x) ∧ name' = name ∧ ∃ e, errs' = errs ++ [e])

/-- Several items. -/
inductive NRun (W : List String) (m : SMap String) : MName → List MErr → List NMeta → MName → List MErr → Prop where
  | nil {name : MName} {errs : List MErr} : NRun W m name errs [] name errs
  | cons {name name1 name' : MName} {errs errs1 errs' : List MErr} {i : NMeta} {l : List NMeta} (step : NStep W m name errs i name1 errs1)
      (rest : NRun W m name1 errs1 l name' errs') : NRun W m name errs (i :: l) name' errs'

theorem noneOf_cons_other {key : String} {i : NMeta} {l : List NMeta} (h : ∀ x, i ≠ .nameValue (some key) x) :
    NoneOf key (i :: l) ↔ NoneOf key l := by
  rw [← lastVal_none, ← lastVal_none, lastVal_cons_other _ _ _ h]

theorem atMostOne_cons_other {key : String} {i : NMeta} {l : List NMeta} (h : ∀ x, i ≠ .nameValue (some key) x) :
    AtMostOne key (i :: l) ↔ AtMostOne key l := by
  unfold AtMostOne
  rw [List.pairwise_cons]
  exact ⟨fun h => h.2, fun hl => ⟨fun j _ hh => by obtain ⟨x, hx⟩ := hh.1; exact h x hx, hl⟩⟩

theorem atMostOne_cons_self {key : String} {x : Lit} {l : List NMeta} :
    AtMostOne key (.nameValue (some key) x :: l) ↔ NoneOf key l ∧ AtMostOne key l := by
  unfold AtMostOne
  rw [List.pairwise_cons]
  refine and_congr ⟨fun h y hy => h _ hy ⟨⟨x, rfl⟩, ⟨y, rfl⟩⟩, ?_⟩ Iff.rfl
  rintro h j hj ⟨-, y, rfl⟩
  exact h y hj

theorem nameNs_cons_other {mapped : String → String → Prop} {i : NMeta} {l : List NMeta} (h : ∀ x, i ≠ .nameValue (some "prefix") x)
    (ns : Option String) : NameNs mapped (i :: l) ns ↔ NameNs mapped l ns := by
  unfold NameNs
  rw [noneOf_cons_other h]
  simp only [← lastVal_some, lastVal_cons_other _ _ _ h]

theorem prefixOk_of_noneOf {mapped : String → String → Prop} {l : List NMeta} (h : NoneOf "prefix" l) : PrefixOk mapped l :=
  ⟨none, .inl ⟨h, rfl⟩⟩

structure NameRun (W : List String) (mapped : String → String → Prop) (name : MName) (errs : List MErr) (l : List NMeta) (name' : MName)
    (errs' : List MErr) : Prop where
  errs_iff : errs' = [] ↔ errs = [] ∧ (∀ i ∈ l, Und W i) ∧ (name.pfx ≠ none → NoneOf "prefix" l) ∧ AtMostOne "prefix" l ∧ PrefixOk mapped l
  loc : errs' = [] → name'.loc = newLoc name.loc l
  keep : errs' = [] → NoneOf "prefix" l → name'.ns = name.ns
  ns : errs' = [] → name.pfx = none → NameNs mapped l name'.ns

theorem forall_mem_cons_iff {α : Type} {P : α → Prop} {a : α} {l : List α} : (∀ x ∈ a :: l, P x) ↔ P a ∧ ∀ x ∈ l, P x := by simp

/-- An item that is not a prefix and was understood. -/
theorem NameRun.cons_plain {W : List String} {mapped : String → String → Prop} {name name1 name' : MName} {errs errs' : List MErr} {i : NMeta}
    {l : List NMeta} (hi : ∀ x, i ≠ .nameValue (some "prefix") x) (hu : Und W i) (hp : name1.pfx = name.pfx) (hns : name1.ns = name.ns)
    (hloc : name1.loc = newLoc name.loc [i]) (ih : NameRun W mapped name1 errs l name' errs') : NameRun W mapped name errs (i :: l) name' errs' where
  errs_iff := by
    rw [ih.errs_iff, forall_mem_cons_iff, noneOf_cons_other hi, atMostOne_cons_other hi, hp]
    unfold PrefixOk
    simp only [nameNs_cons_other hi, hu, true_and]
  loc he := by rw [ih.loc he, hloc, ← newLoc_cons]
  keep he hn := by rw [ih.keep he ((noneOf_cons_other hi).mp hn), hns]
  ns he hn := by rw [nameNs_cons_other hi]; exact ih.ns he (hp.trans hn)

theorem nameRun_spec {W : List String} {m : SMap String} {mapped : String → String → Prop} (hm : Holds m mapped) {name name' : MName}
    {errs errs' : List MErr} {l : List NMeta} (h : NRun W m name errs l name' errs') (inv : name.pfx = none → name.ns = none) :
    NameRun W mapped name errs l name' errs' := by
  induction h with
  | nil =>
    have hno : NoneOf "prefix" [] := by simp [NoneOf]
    exact { errs_iff := ⟨fun h => ⟨h, by simp, fun _ => hno, by simp [AtMostOne], prefixOk_of_noneOf hno⟩, fun h => h.1⟩, loc := fun _ => rfl, keep := fun _ _ => rfl,
            ns := fun _ h => .inl ⟨by simp [NoneOf], inv h⟩ }
  | cons step rest ih =>
    rename_i name name1 name' errs errs1 errs' i l
    rcases step with ⟨v, rfl, rfl, rfl⟩ | ⟨lit, rfl, h1, h2⟩ | ⟨w, hw, rfl, rfl, rfl⟩ | ⟨hu, hi, rfl, e, rfl⟩
    · exact NameRun.cons_plain (name1 := { name with loc := v }) (by simp [kv]) (.inr ⟨_, _, by simp, rfl⟩) rfl rfl
        (by rw [newLoc_rename]; rfl) (ih inv)
    · cases lit with
      | other =>
        rw [processPrefix_other] at h1 h2
        subst h1; subst h2
        have hne : errs' ≠ [] := by
          intro he
          have := ((ih inv).errs_iff.mp he).1
          simp at this
        refine { errs_iff := ⟨fun he => absurd he hne, ?_⟩, loc := fun he => absurd he hne, keep := fun he => absurd he hne, ns := fun he => absurd he hne }
        rintro ⟨-, hu, -⟩
        have := hu (.nameValue (some "prefix") .other) (by simp)
        simp [Und, kv, word] at this
      | str s =>
        cases hp : name.pfx with
        | some p =>
          rw [processPrefix_again m s name errs p hp] at h1 h2
          subst h1; subst h2
          have hne : errs' ≠ [] := by
            intro he
            have := ((ih inv).errs_iff.mp he).1
            simp at this
          refine { errs_iff := ⟨fun he => absurd he hne, ?_⟩, loc := fun he => absurd he hne, keep := fun he => absurd he hne, ns := fun he => absurd he hne }
          rintro ⟨-, -, hn, -⟩
          exact absurd (hn (by rw [hp]; simp)) (by
            intro hn
            exact hn (.str s) (by simp))
        | none =>
          have hns := inv hp
          have hlast : NoneOf "prefix" l → lastVal "prefix" (.nameValue (some "prefix") (.str s) :: l) = some (.str s) := by
            intro hn
            rw [lastVal_cons_self, (lastVal_none _ _).mpr hn]; rfl
          have hu : Und W (.nameValue (some "prefix") (.str s)) := .inr ⟨"prefix", s, by simp, rfl⟩
          have hnl : newLoc name.loc [NMeta.nameValue (some "prefix") (.str s)] = name.loc := newLoc_kv _ "prefix" s (by decide)
          rcases processPrefix_str m s name errs hp with ⟨ns, hr, he, -⟩ | ⟨hr, n, e, hl, hpn, he⟩
          · rw [he hns] at h1 h2
            subst h1; subst h2
            have ih := ih (by simp)
            refine { errs_iff := ?_, loc := ?_, keep := ?_, ns := ?_ }
            · rw [ih.errs_iff, forall_mem_cons_iff, atMostOne_cons_self]
              simp only [hu, true_and, hp, ne_eq, not_true, false_implies, true_implies, reduceCtorEq, not_false_eq_true]
              constructor
              · rintro ⟨a, b, c, d, -⟩
                exact ⟨a, b, ⟨c, d⟩, ⟨ns, (nameNs_some hm (hlast c) _).mpr hr⟩⟩
              · rintro ⟨a, b, ⟨c, d⟩, -⟩
                exact ⟨a, b, c, d, prefixOk_of_noneOf c⟩
            · intro he
              rw [ih.loc he, newLoc_cons, hnl]
            · intro _ hn
              exact absurd (List.mem_cons_self) (hn (.str s))
            · intro he _
              have hno := (ih.errs_iff.mp he).2.2.1 (by simp)
              rw [nameNs_some hm (hlast hno), hr, ih.keep he hno]
          · rw [he] at h1 h2
            subst h1; subst h2
            have ih := ih (by rw [hpn]; simp)
            have hne : errs' ≠ [] := by
              intro he
              have := (ih.errs_iff.mp he).1
              simp at this
            refine { errs_iff := ⟨fun he => absurd he hne, ?_⟩, loc := fun he => absurd he hne, keep := fun he => absurd he hne, ns := fun he => absurd he hne }
            rintro ⟨-, -, -, ha, ns, hns⟩
            rw [nameNs_some hm (hlast (atMostOne_cons_self.mp ha).1), hr] at hns
            simp at hns
    · exact NameRun.cons_plain (by simp [word]) (.inl ⟨_, hw, rfl⟩) rfl rfl (by rw [newLoc_other _ _ _ (by simp [kv, word])]; rfl) (ih inv)
    · have hne : errs' ≠ [] := by
        intro he
        have := ((ih inv).errs_iff.mp he).1
        simp at this
      refine { errs_iff := ⟨fun he => absurd he hne, ?_⟩, loc := fun he => absurd he hne, keep := fun he => absurd he hne, ns := fun he => absurd he hne }
      rintro ⟨-, h, -⟩
      exact absurd (h i (by simp)) hu

/-! ### Fields -/

/-- The words on fields. -/
def fieldWords : List String := ["attribute", "default", "flatten", "text"]

theorem fieldItem_spec (m : SMap String) (s : FieldState) (i : NMeta) :
    NStep fieldWords m s.name s.errs i (fieldItem m s i).name (fieldItem m s i).errs ∧
    (fieldItem m s i).attribute = (s.attribute || decide (i = word "attribute")) ∧
    (fieldItem m s i).default = (s.default || decide (i = word "default")) ∧
    (fieldItem m s i).flatten = (s.flatten || decide (i = word "flatten")) ∧
    (fieldItem m s i).text = (s.text || decide (i = word "text")) := by
  unfold fieldItem
  split
  · exact ⟨.inr (.inr (.inl ⟨"attribute", by simp [fieldWords], rfl, rfl, rfl⟩)), by simp [word], by simp [word], by simp [word], by simp [word]⟩
  · exact ⟨.inr (.inr (.inl ⟨"default", by simp [fieldWords], rfl, rfl, rfl⟩)), by simp [word], by simp [word], by simp [word], by simp [word]⟩
  · exact ⟨.inr (.inr (.inl ⟨"flatten", by simp [fieldWords], rfl, rfl, rfl⟩)), by simp [word], by simp [word], by simp [word], by simp [word]⟩
  · exact ⟨.inr (.inr (.inl ⟨"text", by simp [fieldWords], rfl, rfl, rfl⟩)), by simp [word], by simp [word], by simp [word], by simp [word]⟩
  · exact ⟨.inl ⟨_, rfl, rfl, rfl⟩, by simp [word], by simp [word], by simp [word], by simp [word]⟩
  · refine ⟨.inr (.inr (.inr ⟨?_, by simp, rfl, _, rfl⟩)), by simp [word], by simp [word], by simp [word], by simp [word]⟩
    simp [Und, kv, word]
  · exact ⟨.inr (.inl ⟨_, rfl, rfl, rfl⟩), by simp [word], by simp [word], by simp [word], by simp [word]⟩
  · rename_i h1 h2 h3 h4 h5 h6 h7
    refine ⟨.inr (.inr (.inr ⟨?_, fun x hx => h7 x hx, rfl, _, rfl⟩)), ?_, ?_, ?_, ?_⟩
    · rintro (⟨w, hw, rfl⟩ | ⟨k, v, hk, rfl⟩)
      · simp only [fieldWords, List.mem_cons, List.not_mem_nil, or_false] at hw
        rcases hw with rfl | rfl | rfl | rfl
        · exact h1 rfl
        · exact h2 rfl
        · exact h3 rfl
        · exact h4 rfl
      · simp only [List.mem_cons, List.not_mem_nil, or_false] at hk
        rcases hk with rfl | rfl
        · exact h5 _ rfl
        · exact h7 _ rfl
    · rw [decide_eq_false (show ¬ i = word "attribute" from fun h => h1 h)]; simp
    · rw [decide_eq_false (show ¬ i = word "default" from fun h => h2 h)]; simp
    · rw [decide_eq_false (show ¬ i = word "flatten" from fun h => h3 h)]; simp
    · rw [decide_eq_false (show ¬ i = word "text" from fun h => h4 h)]; simp

theorem or_decide_cons (b : Bool) (i w : NMeta) (l : List NMeta) :
    ((b || decide (i = w)) || decide (w ∈ l)) = (b || decide (w ∈ i :: l)) := by
  by_cases h : i = w
  · subst h; simp
  · have : (w = i) ↔ False := ⟨fun e => h e.symm, False.elim⟩
    simp [h, this]

theorem fieldFold_spec (m : SMap String) (l : List NMeta) (s : FieldState) :
    NRun fieldWords m s.name s.errs l (l.foldl (fieldItem m) s).name (l.foldl (fieldItem m) s).errs ∧
    (l.foldl (fieldItem m) s).attribute = (s.attribute || decide (word "attribute" ∈ l)) ∧
    (l.foldl (fieldItem m) s).default = (s.default || decide (word "default" ∈ l)) ∧
    (l.foldl (fieldItem m) s).flatten = (s.flatten || decide (word "flatten" ∈ l)) ∧
    (l.foldl (fieldItem m) s).text = (s.text || decide (word "text" ∈ l)) := by
  induction l generalizing s with
  | nil => exact ⟨.nil, by simp, by simp, by simp, by simp⟩
  | cons i l ih =>
    obtain ⟨h0, h1, h2, h3, h4⟩ := fieldItem_spec m s i
    obtain ⟨g0, g1, g2, g3, g4⟩ := ih (fieldItem m s i)
    simp only [List.foldl_cons]
    refine ⟨.cons h0 g0, ?_, ?_, ?_, ?_⟩
    · rw [g1, h1, or_decide_cons]
    · rw [g2, h2, or_decide_cons]
    · rw [g3, h3, or_decide_cons]
    · rw [g4, h4, or_decide_cons]

theorem elementField_spec {m : SMap String} {mapped : String → String → Prop} (hm : Holds m mapped) (f : DField) (errs : List MErr) :
    ((elementField m f errs).2 = [] ↔ errs = [] ∧ FieldOk mapped f.attrs) ∧
    ((elementField m f errs).2 = [] → ∃ r, (elementField m f errs).1 = some r ∧ FieldIs mapped f r) := by
  have hg := getMetaItems_spec f.attrs errs
  unfold elementField
  generalize getMetaItems f.attrs errs = g at hg
  obtain ⟨items, errs1⟩ := g
  simp only at hg ⊢
  obtain ⟨rfl, herr⟩ := hg
  obtain ⟨run, h1, h2, h3, h4⟩ := fieldFold_spec m (attrItems f.attrs)
    { «attribute» := false, default := false, flatten := false, text := false, name := .fromIdent f.ident, errs := errs1 }
  have run := nameRun_spec hm run (fun _ => rfl)
  generalize hs : List.foldl (fieldItem m)
    { «attribute» := false, default := false, flatten := false, text := false, name := .fromIdent f.ident, errs := errs1 } (attrItems f.attrs) = s
    at run h1 h2 h3 h4
  simp only [Bool.false_or] at h1 h2 h3 h4
  have herrs : s.errs = [] ↔ errs = [] ∧ AttrsOk f.attrs ∧ (∀ i ∈ attrItems f.attrs, Und fieldWords i) ∧ AtMostOne "prefix" (attrItems f.attrs) ∧
      PrefixOk mapped (attrItems f.attrs) := by
    rw [run.errs_iff]
    simp only [MName.fromIdent, ne_eq, not_true, false_implies, true_and, herr]
    constructor
    · rintro ⟨⟨a, b⟩, c⟩; exact ⟨a, b, c⟩
    · rintro ⟨a, b, c⟩; exact ⟨⟨a, b⟩, c⟩
  have hok : (∃ md, FieldMode (attrItems f.attrs) md) → (s.errs = [] ↔ errs = [] ∧ FieldOk mapped f.attrs) := by
    intro hmd
    rw [herrs]
    constructor
    · rintro ⟨a, b, c, d, e⟩; exact ⟨a, ⟨b, c, d, e, hmd⟩⟩
    · rintro ⟨a, h⟩; exact ⟨a, h.lists, h.understood, h.once, h.prefixes⟩
  have hloc : s.errs = [] → LocalName f.ident (attrItems f.attrs) s.name.loc := by
    intro he
    rw [run.loc he]
    apply newLoc_spec
    intro x hx
    rcases (herrs.mp he).2.2.1 _ hx with ⟨w, _, hl⟩ | ⟨k, v, _, hk⟩
    · simp [word] at hl
    · simp [kv] at hk; exact ⟨v, hk.2⟩
  have hns : s.errs = [] → NameNs mapped (attrItems f.attrs) s.name.ns := fun he => run.ns he rfl
  have hbad : (¬ ∃ md, FieldMode (attrItems f.attrs) md) → ∀ e, ((s.errs ++ [e] = [] ↔ errs = [] ∧ FieldOk mapped f.attrs) ∧
      (s.errs ++ [e] = [] → ∃ r, (none : Option MField) = some r ∧ FieldIs mapped f r)) := by
    intro hmd e
    refine ⟨?_, by simp⟩
    simp only [List.append_eq_nil_iff, List.cons_ne_nil, and_false, false_iff, not_and]
    exact fun _ h => hmd h.mode
  have hgood : ∀ md, FieldMode (attrItems f.attrs) md →
      (s.errs = [] ↔ errs = [] ∧ FieldOk mapped f.attrs) ∧
      (s.errs = [] → ∃ r, some ({ ident := f.ident, mode := md, default := s.default, name := s.name } : MField) = some r ∧ FieldIs mapped f r) := by
    intro md hmd
    refine ⟨hok ⟨md, hmd⟩, fun he => ⟨_, rfl, rfl, hloc he, hns he, hmd, ?_⟩⟩
    rw [h2]; simp
  rw [h1, h3, h4]
  by_cases ha : word "attribute" ∈ attrItems f.attrs <;> by_cases hf : word "flatten" ∈ attrItems f.attrs <;>
    by_cases ht : word "text" ∈ attrItems f.attrs <;>
    simp only [ha, hf, ht, decide_true, decide_false, Bool.not_true, Bool.not_false, Bool.and_true, Bool.and_false, if_true, if_false,
      Bool.false_eq_true]
  · exact hbad (by rintro ⟨md, hmd⟩; cases hmd <;> contradiction) _
  · exact hbad (by rintro ⟨md, hmd⟩; cases hmd <;> contradiction) _
  · exact hbad (by rintro ⟨md, hmd⟩; cases hmd <;> contradiction) _
  · exact hgood _ (.attribute ha hf ht)
  · exact hbad (by rintro ⟨md, hmd⟩; cases hmd <;> contradiction) _
  · by_cases hd : word "default" ∈ attrItems f.attrs
    · rw [if_pos (by rw [h2]; simpa using hd)]
      exact hbad (by rintro ⟨md, hmd⟩; cases hmd <;> contradiction) _
    · rw [if_neg (by rw [h2]; simpa using hd)]
      exact hgood _ (.flatten ha hf ht hd)
  · exact hgood _ (.text ha hf ht)
  · exact hgood _ (.element ha hf ht)

theorem elementFields_spec {m : SMap String} {mapped : String → String → Prop} (hm : Holds m mapped) (l : List DField) (errs : List MErr) :
    ((elementFields m l errs).2 = [] ↔ errs = [] ∧ ∀ f ∈ l, FieldOk mapped f.attrs) ∧
    ((elementFields m l errs).2 = [] → Rowwise (FieldIs mapped) l (elementFields m l errs).1) := by
  induction l generalizing errs with
  | nil => exact ⟨by simp [elementFields], fun _ => .nil⟩
  | cons f l ih =>
    obtain ⟨h1, h2⟩ := elementField_spec hm f errs
    simp only [elementFields]
    obtain ⟨g1, g2⟩ := ih (elementField m f errs).2
    constructor
    · rw [g1, h1, forall_mem_cons_iff, and_assoc]
    · intro he
      obtain ⟨r, hr, hf⟩ := h2 (g1.mp he).1
      rw [hr]
      exact .cons hf (g2 he)

theorem rowwise_text {mapped : String → String → Prop} {l : List DField} {r : List MField} (h : Rowwise (FieldIs mapped) l r) :
    2 ≤ (r.filter fun f => f.mode == .text).length ↔ ¬ OneText l := by
  have hmode : ∀ f (x : MField), FieldIs mapped f x → ((x.mode == .text) = true ↔ word "text" ∈ attrItems f.attrs) := by
    intro f x hx
    rw [beq_iff_eq]
    have := hx.mode
    cases hm : x.mode <;> rw [hm] at this <;> cases this <;> simp_all
  have hone : ∀ (l : List DField) (r : List MField), Rowwise (FieldIs mapped) l r →
      (1 ≤ (r.filter fun f => f.mode == .text).length ↔ ∃ f ∈ l, word "text" ∈ attrItems f.attrs) := by
    intro l r h
    induction h with
    | nil => simp
    | cons hx t ih =>
      rename_i f x l r
      rw [List.filter_cons]
      by_cases hm : (x.mode == .text) = true
      · rw [if_pos hm]
        simp [(hmode f x hx).mp hm]
      · rw [if_neg hm, ih]
        have : ¬ word "text" ∈ attrItems f.attrs := fun h => hm ((hmode f x hx).mpr h)
        simp [this]
  unfold OneText
  induction h with
  | nil => simp
  | cons hx t ih =>
    rename_i f x l r
    rw [List.filter_cons, List.pairwise_cons]
    by_cases hm : (x.mode == .text) = true
    · rw [if_pos hm]
      have hf := (hmode f x hx).mp hm
      have h1 := hone _ _ t
      simp only [List.length_cons]
      constructor
      · intro hle hh
        obtain ⟨g, hg, hgt⟩ := h1.mp (by omega)
        exact hh.1 g hg ⟨hf, hgt⟩
      · intro hh
        apply Classical.byContradiction
        intro hlt
        apply hh
        have hno : ¬ ∃ g ∈ l, word "text" ∈ attrItems g.attrs := fun h => hlt (by have := h1.mpr h; omega)
        refine ⟨fun g hg hb => hno ⟨g, hg, hb.2⟩, ?_⟩
        apply Classical.byContradiction
        intro hb
        have := ih.mpr hb
        omega
    · rw [if_neg hm]
      have hf : ¬ word "text" ∈ attrItems f.attrs := fun h => hm ((hmode f x hx).mpr h)
      refine ih.trans ?_
      constructor
      · intro h hh; exact h hh.2
      · intro h hh; exact h ⟨fun g _ hb => hf hb.1, hh⟩

/-! ### Variants -/

theorem variantLoop_spec (m : SMap String) (l : List NMeta) (name : MName) (errs : List MErr) :
    ∃ name' errs', NRun [] m name errs (beforeSkip l) name' errs' ∧
      variantLoop m l name errs = (if word "skip" ∈ l then none else some name', errs') := by
  induction l generalizing name errs with
  | nil => exact ⟨name, errs, .nil, rfl⟩
  | cons i l ih =>
    have hb : i ≠ word "skip" → beforeSkip (i :: l) = i :: beforeSkip l := by
      intro h; unfold beforeSkip; rw [List.takeWhile_cons]; simp [h]
    have hmem : i ≠ word "skip" → (word "skip" ∈ i :: l ↔ word "skip" ∈ l) := by
      intro h
      rw [List.mem_cons]
      exact ⟨fun hh => hh.elim (fun e => absurd e.symm h) id, .inr⟩
    have hcons : ∀ (name1 : MName) (errs1 : List MErr), i ≠ word "skip" → NStep [] m name errs i name1 errs1 →
        variantLoop m (i :: l) name errs = variantLoop m l name1 errs1 →
        ∃ name' errs', NRun [] m name errs (beforeSkip (i :: l)) name' errs' ∧
          variantLoop m (i :: l) name errs = (if word "skip" ∈ i :: l then none else some name', errs') := by
      intro name1 errs1 hi hst he
      obtain ⟨name', errs', h1, h2⟩ := ih name1 errs1
      refine ⟨name', errs', ?_, ?_⟩
      · rw [hb hi]; exact .cons hst h1
      · rw [he, h2]
        simp only [hmem hi]
    by_cases h1 : ∃ v, i = kv "rename" v
    · obtain ⟨v, rfl⟩ := h1
      exact hcons _ _ (by simp [kv, word]) (.inl ⟨v, rfl, rfl, rfl⟩) (by simp [variantLoop, kv])
    by_cases h2 : ∃ x, i = .nameValue (some "prefix") x
    · obtain ⟨x, rfl⟩ := h2
      exact hcons _ _ (by simp [word]) (.inr (.inl ⟨x, rfl, rfl, rfl⟩)) (by simp [variantLoop])
    by_cases h3 : i = word "skip"
    · subst h3
      refine ⟨name, errs, ?_, ?_⟩
      · unfold beforeSkip; rw [List.takeWhile_cons]; simp; exact .nil
      · simp [variantLoop, word]
    · have hu : ¬ Und [] i := by
        rintro (⟨w, hw, -⟩ | ⟨k, v, hk, rfl⟩)
        · simp at hw
        · simp only [List.mem_cons, List.not_mem_nil, or_false] at hk
          rcases hk with rfl | rfl
          · exact h1 ⟨v, rfl⟩
          · exact h2 ⟨_, rfl⟩
      have : ∃ e, variantLoop m (i :: l) name errs = variantLoop m l name (errs ++ [e]) := by
        conv =>
          enter [1, e, 1]
          unfold variantLoop
        split
        · simp_all
        · rename_i he; injection he with ha hb'; exact absurd ⟨_, ha⟩ h1
        · rename_i he; injection he with ha hb'; subst hb'; exact ⟨_, rfl⟩
        · rename_i he; injection he with ha hb'; exact absurd ⟨_, ha⟩ h2
        · rename_i he; injection he with ha hb'; exact absurd ha h3
        · rename_i he; injection he with ha hb'; subst hb'; exact ⟨_, rfl⟩
      obtain ⟨e, he⟩ := this
      exact hcons _ _ h3 (.inr (.inr (.inr ⟨hu, fun x hx => h2 ⟨x, hx⟩, rfl, e, rfl⟩))) he

theorem beforeSkip_self {l : List NMeta} (h : word "skip" ∉ l) : beforeSkip l = l := by
  unfold beforeSkip
  induction l with
  | nil => rfl
  | cons i l ih =>
    rw [List.mem_cons, not_or] at h
    rw [List.takeWhile_cons, if_pos (by simpa using fun e => h.1 e.symm), ih h.2]

theorem elementVariant_spec {m : SMap String} {mapped : String → String → Prop} (hm : Holds m mapped) (v : DVariant) (errs : List MErr) :
    ((elementVariant m v errs).2.2 = [] ↔ errs = [] ∧ VariantOk mapped v) ∧
    ((elementVariant m v errs).2.1 = decide (word "skip" ∈ attrItems v.attrs)) ∧
    (word "skip" ∈ attrItems v.attrs → (elementVariant m v errs).1 = none) ∧
    ((elementVariant m v errs).2.2 = [] → word "skip" ∉ attrItems v.attrs → ∃ r, (elementVariant m v errs).1 = some r ∧ VariantIs mapped v r) := by
  have hg := getMetaItems_spec v.attrs errs
  unfold elementVariant
  generalize getMetaItems v.attrs errs = g at hg
  obtain ⟨items, errs1⟩ := g
  simp only at hg ⊢
  obtain ⟨rfl, herr⟩ := hg
  obtain ⟨name, errs2, hr, he⟩ := variantLoop_spec m (attrItems v.attrs) (.fromIdent v.ident) errs1
  have run := nameRun_spec hm hr (fun _ => rfl)
  have herrs : errs2 = [] ↔ errs = [] ∧ AttrsOk v.attrs ∧ (∀ i ∈ beforeSkip (attrItems v.attrs), Und [] i) ∧
      AtMostOne "prefix" (beforeSkip (attrItems v.attrs)) ∧ PrefixOk mapped (beforeSkip (attrItems v.attrs)) := by
    rw [run.errs_iff]
    simp only [MName.fromIdent, ne_eq, not_true, false_implies, true_and, herr]
    constructor
    · rintro ⟨⟨a, b⟩, c⟩; exact ⟨a, b, c⟩
    · rintro ⟨a, b, c⟩; exact ⟨⟨a, b⟩, c⟩
  have hund : (∀ i ∈ beforeSkip (attrItems v.attrs), Und [] i) ↔
      ∀ i ∈ beforeSkip (attrItems v.attrs), ∃ k s, k ∈ ["rename", "prefix"] ∧ i = kv k s := by
    constructor
    · intro h i hi
      rcases h i hi with ⟨w, hw, -⟩ | h
      · simp at hw
      · exact h
    · intro h i hi; exact .inr (h i hi)
  have hok : (Skipped v ∨ v.fields = .unit ∨ v.fields = .unnamed 1) → (errs2 = [] ↔ errs = [] ∧ VariantOk mapped v) := by
    intro hv
    rw [herrs, hund]
    constructor
    · rintro ⟨a, b, c, d, e⟩; exact ⟨a, ⟨b, c, d, e, hv⟩⟩
    · rintro ⟨a, h⟩; exact ⟨a, h.lists, h.understood, h.once, h.prefixes⟩
  by_cases hskip : word "skip" ∈ attrItems v.attrs
  · rw [if_pos hskip] at he
    rw [he]
    simp only [hskip, decide_true, not_true, false_implies, implies_true, and_true]
    exact hok (.inl hskip)
  · rw [if_neg hskip] at he
    rw [he]
    simp only [hskip, not_false_eq_true, true_implies, false_implies, true_and, decide_false]
    rw [beforeSkip_self hskip] at run
    have hloc : errs2 = [] → LocalName v.ident (attrItems v.attrs) name.loc := by
      intro he
      rw [run.loc he]
      apply newLoc_spec
      intro x hx
      rcases (run.errs_iff.mp he).2.1 _ hx with ⟨w, hw, -⟩ | ⟨k, s, _, hk⟩
      · simp at hw
      · simp [kv] at hk; exact ⟨s, hk.2⟩
    have hns : errs2 = [] → NameNs mapped (attrItems v.attrs) name.ns := fun he => run.ns he rfl
    by_cases hu : v.fields = .unit
    · rw [if_pos hu]
      exact ⟨hok (.inr (.inl hu)), rfl, fun he => ⟨_, rfl, rfl, hloc he, hns he, by simp [hu]⟩⟩
    · rw [if_neg hu]
      by_cases h1 : v.fields = .unnamed 1
      · rw [if_pos h1]
        exact ⟨hok (.inr (.inr h1)), rfl, fun he => ⟨_, rfl, rfl, hloc he, hns he, by simp [h1]⟩⟩
      · rw [if_neg h1]
        refine ⟨?_, rfl, by simp⟩
        simp only [List.append_eq_nil_iff, List.cons_ne_nil, and_false, false_iff, not_and]
        intro _ h
        rcases h.fields with h | h | h
        · exact hskip h
        · exact hu h
        · exact h1 h

theorem elementVariants_spec {m : SMap String} {mapped : String → String → Prop} (hm : Holds m mapped) (l : List DVariant) (errs : List MErr) :
    ((elementVariants m l errs).2.2 = [] ↔ errs = [] ∧ ∀ v ∈ l, VariantOk mapped v) ∧
    ((elementVariants m l errs).2.1 = true ↔ ∃ v ∈ l, Skipped v) ∧
    ((elementVariants m l errs).2.2 = [] →
      Rowwise (VariantIs mapped) (l.filter fun v => decide (word "skip" ∉ attrItems v.attrs)) (elementVariants m l errs).1) := by
  induction l generalizing errs with
  | nil => exact ⟨by simp [elementVariants], by simp [elementVariants], fun _ => .nil⟩
  | cons v l ih =>
    obtain ⟨h1, h2, h3, h4⟩ := elementVariant_spec hm v errs
    simp only [elementVariants]
    obtain ⟨g1, g2, g3⟩ := ih (elementVariant m v errs).2.2
    refine ⟨?_, ?_, ?_⟩
    · rw [g1, h1, forall_mem_cons_iff, and_assoc]
    · rw [h2, Bool.or_eq_true, g2]
      simp [Skipped]
    · intro he
      by_cases hs : word "skip" ∈ attrItems v.attrs
      · rw [h3 hs, List.filter_cons_of_neg (by simpa using hs)]
        exact g3 he
      · obtain ⟨r, hr, hv⟩ := h4 (g1.mp he).1 hs
        rw [hr, List.filter_cons_of_pos (by simpa using hs)]
        exact .cons hv (g3 he)

/-! ### Declarations -/

theorem elementStruct_spec (ident : String) (attrs : List Attr) (fields : List DField) :
    ((∃ i ∈ attrItems attrs, Reserved i) ∧ elementStruct ident attrs (some fields) [] = .error .panic) ∨
    ((∀ i ∈ attrItems attrs, ¬ Reserved i) ∧ ∃ r errs, elementStruct ident attrs (some fields) [] = .ok (r, errs) ∧
      (errs = [] ↔ TypeOk attrs ∧ (∀ f ∈ fields, FieldOk (Mapped (attrItems attrs)) f.attrs) ∧ OneText fields) ∧
      (errs = [] → ∃ s, r = some s ∧ AttrIs ident attrs s.attr ∧ Rowwise (FieldIs (Mapped (attrItems attrs))) fields s.fields)) := by
  unfold elementStruct
  rcases elementAttr_spec ident attrs [] with ⟨hr, h⟩ | ⟨hr, a, errs, h, h1, h2⟩
  · rw [h]; exact .inl ⟨hr, rfl⟩
  · rw [h]
    refine .inr ⟨hr, ?_⟩
    simp only [true_and] at h1
    dsimp only
    by_cases he : errs = []
    · obtain ⟨ha, hm⟩ := h2 he
      obtain ⟨g1, g2⟩ := elementFields_spec hm fields errs
      by_cases hf : (elementFields a.namespaces fields errs).2 = []
      · have hrow := g2 hf
        have ht := rowwise_text hrow
        by_cases h2t : 2 ≤ ((elementFields a.namespaces fields errs).1.filter fun f => f.mode == .text).length
        · rw [if_pos h2t]
          refine ⟨_, _, rfl, ?_, by simp⟩
          simp only [List.append_eq_nil_iff, List.cons_ne_nil, and_false, false_iff]
          exact fun h => ht.mp h2t h.2.2
        · rw [if_neg h2t]
          have hot : OneText fields := Classical.byContradiction fun h => h2t (ht.mpr h)
          exact ⟨_, _, rfl, ⟨fun _ => ⟨h1.mp he, (g1.mp hf).2, hot⟩, fun _ => hf⟩, fun _ => ⟨_, rfl, ha, hrow⟩⟩
      · have hno : ¬ ∀ f ∈ fields, FieldOk (Mapped (attrItems attrs)) f.attrs := fun h => hf (g1.mpr ⟨he, h⟩)
        split
        · refine ⟨_, _, rfl, ?_, by simp⟩
          simp only [List.append_eq_nil_iff, List.cons_ne_nil, and_false, false_iff]
          exact fun h => hno h.2.1
        · exact ⟨_, _, rfl, ⟨fun h => absurd h hf, fun h => absurd h.2.1 hno⟩, fun h => absurd h hf⟩
    · have hf : (elementFields a.namespaces fields errs).2 ≠ [] := fun hnil =>
        he ((elementFields_spec (mapped := fun p u => SMap.get a.namespaces p = some u) (fun _ _ => Iff.rfl) fields errs).1.mp hnil).1
      have hno : ¬ TypeOk attrs := fun h => he (h1.mpr h)
      split
      · refine ⟨_, _, rfl, ?_, by simp⟩
        simp only [List.append_eq_nil_iff, List.cons_ne_nil, and_false, false_iff]
        exact fun h => hno h.1
      · exact ⟨_, _, rfl, ⟨fun h => absurd h hf, fun h => absurd h.1 hno⟩, fun h => absurd h hf⟩

theorem elementEnum_spec (ident : String) (attrs : List Attr) (vs : List DVariant) :
    ((∃ i ∈ attrItems attrs, Reserved i) ∧ elementEnum ident attrs vs [] = .error .panic) ∨
    ((∀ i ∈ attrItems attrs, ¬ Reserved i) ∧ ∃ e errs, elementEnum ident attrs vs [] = .ok (e, errs) ∧
      (errs = [] ↔ TypeOk attrs ∧ ∀ v ∈ vs, VariantOk (Mapped (attrItems attrs)) v) ∧
      (errs = [] → AttrIs ident attrs e.attr ∧
        Rowwise (VariantIs (Mapped (attrItems attrs))) (vs.filter fun v => decide (word "skip" ∉ attrItems v.attrs)) e.variants ∧
        (e.hasSkipped = true ↔ ∃ v ∈ vs, Skipped v))) := by
  unfold elementEnum
  rcases elementAttr_spec ident attrs [] with ⟨hr, h⟩ | ⟨hr, a, errs, h, h1, h2⟩
  · rw [h]; exact .inl ⟨hr, rfl⟩
  · rw [h]
    refine .inr ⟨hr, _, _, rfl, ?_, ?_⟩
    · simp only [true_and] at h1
      constructor
      · intro he
        have he0 := ((elementVariants_spec (mapped := fun p u => SMap.get a.namespaces p = some u) (fun _ _ => Iff.rfl) vs errs).1.mp he).1
        exact ⟨h1.mp he0, ((elementVariants_spec (h2 he0).2 vs errs).1.mp he).2⟩
      · rintro ⟨ht, hv⟩
        have he0 := h1.mpr ht
        exact (elementVariants_spec (h2 he0).2 vs errs).1.mpr ⟨he0, hv⟩
    · intro he
      have he0 := ((elementVariants_spec (mapped := fun p u => SMap.get a.namespaces p = some u) (fun _ _ => Iff.rfl) vs errs).1.mp he).1
      have hsp := elementVariants_spec (h2 he0).2 vs errs
      exact ⟨(h2 he0).1, hsp.2.2 he, hsp.2.1⟩

theorem elementStruct_none (ident : String) (attrs : List Attr) :
    ((∃ i ∈ attrItems attrs, Reserved i) ∧ elementStruct ident attrs none [] = .error .panic) ∨
    ((∀ i ∈ attrItems attrs, ¬ Reserved i) ∧ ∃ errs, elementStruct ident attrs none [] = .ok (none, errs) ∧ errs ≠ []) := by
  unfold elementStruct
  rcases elementAttr_spec ident attrs [] with ⟨hr, h⟩ | ⟨hr, a, errs, h, h1, h2⟩
  · rw [h]; exact .inl ⟨hr, rfl⟩
  · rw [h]
    exact .inr ⟨hr, _, rfl, by simp⟩

theorem describe_spec (d : Decl) :
    (UsesReserved d ∧ describe d = .error .panic) ∨
    (¬ UsesReserved d ∧ ∃ r errs, describe d = .ok (r, errs) ∧ (errs = [] ↔ DeclOk d) ∧ (errs = [] → ∃ t, r = some t ∧ Describes d t)) := by
  obtain ⟨ident, attrs, data⟩ := d
  have hres : data ≠ .union → (UsesReserved ⟨ident, attrs, data⟩ ↔ ∃ i ∈ attrItems attrs, Reserved i) := by
    intro hd; simp [UsesReserved, hd]
  cases data with
  | enm vs =>
    have hres := hres (by simp)
    simp only [describe]
    rcases elementEnum_spec ident attrs vs with ⟨hr, h⟩ | ⟨hr, e, errs, h, h1, h2⟩
    · rw [h]; exact .inl ⟨hres.mpr hr, rfl⟩
    · rw [h]
      refine .inr ⟨fun hh => ?_, _, _, rfl, h1, fun he => ⟨_, rfl, vs, rfl, h2 he⟩⟩
      obtain ⟨i, hi, hri⟩ := hres.mp hh
      exact hr i hi hri
  | named fields =>
    have hres := hres (by simp)
    simp only [describe]
    rcases elementStruct_spec ident attrs fields with ⟨hr, h⟩ | ⟨hr, r, errs, h, h1, h2⟩
    · rw [h]; exact .inl ⟨hres.mpr hr, rfl⟩
    · rw [h]
      refine .inr ⟨fun hh => ?_, _, _, rfl, h1, fun he => ?_⟩
      · obtain ⟨i, hi, hri⟩ := hres.mp hh
        exact hr i hi hri
      · obtain ⟨s, rfl, hs⟩ := h2 he
        exact ⟨_, rfl, fields, rfl, hs⟩
  | unnamed =>
    have hres := hres (by simp)
    simp only [describe]
    rcases elementStruct_none ident attrs with ⟨hr, h⟩ | ⟨hr, errs, h, h1⟩
    · rw [h]; exact .inl ⟨hres.mpr hr, rfl⟩
    · rw [h]
      refine .inr ⟨fun hh => ?_, _, _, rfl, ?_, fun he => absurd he h1⟩
      · obtain ⟨i, hi, hri⟩ := hres.mp hh
        exact hr i hi hri
      · exact ⟨fun he => absurd he h1, fun hh => hh.2.elim⟩
  | union =>
    refine .inr ⟨fun hh => hh.1 rfl, _, _, rfl, ⟨by simp, fun hh => hh.2.elim⟩, by simp⟩

end SX
