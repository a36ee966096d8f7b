import Verif.Proof.Names
import Verif.Spec.Names

namespace SX
open Spec

theorem str_compare_lt (a b : String) : compare a b = .lt ↔ a < b := by
  show compareOfLessAndEq a b = .lt ↔ _
  unfold compareOfLessAndEq
  by_cases h : a < b
  · simp [h]
  · simp only [h, if_false, iff_false]
    split <;> simp

theorem nameLe_iff (a b : EName) : nameLe a b ↔ (a.cmp b).isLE = true := by
  unfold nameLe EName.cmp
  rw [then_isLE, str_compare_lt]
  constructor
  · rintro (h | ⟨h, h2⟩)
    · exact .inl h
    · right
      refine ⟨Std.LawfulEqCmp.compare_eq_iff_eq.mpr h, ?_⟩
      rcases h2 with h2 | h2
      · rw [(str_compare_lt _ _).mpr h2]; rfl
      · have : compare a.loc b.loc = .eq := Std.LawfulEqCmp.compare_eq_iff_eq.mpr h2
        rw [this]; rfl
  · rintro (h | ⟨h, h2⟩)
    · exact .inl h
    · right
      refine ⟨Std.LawfulEqCmp.compare_eq_iff_eq.mp h, ?_⟩
      cases hc : compare a.loc b.loc with
      | lt => exact .inl ((str_compare_lt _ _).mp hc)
      | eq => exact .inr (Std.LawfulEqCmp.compare_eq_iff_eq.mp hc)
      | gt => rw [hc] at h2; simp at h2

theorem sorted_iff (t : List EName) : Sorted t ↔ SortedNames t := by
  unfold Sorted SortedNames
  rw [List.pairwise_iff_getElem]
  constructor
  · intro h i j hi hj hij
    exact (nameLe_iff _ _).mp (h i j _ _ hij (List.getElem?_eq_getElem hi) (List.getElem?_eq_getElem hj))
  · intro h i j x y hij hx hy
    obtain ⟨hi, rfl⟩ := List.getElem?_eq_some_iff.mp hx
    obtain ⟨hj, rfl⟩ := List.getElem?_eq_some_iff.mp hy
    exact (nameLe_iff _ _).mpr (h i j hi hj hij)

/-! ## C08 -/

/-- **C08.** On a sorted table `find` returns without a fault; `Some(i)` means `table[i]` is the name
looked up (in particular `i` is in range), and `None` means the table does not contain it. -/
theorem C08_find_exact (table : List EName) (h : Sorted table) (name : EName) :
    ∃ r, find name table = .ok r ∧ (∀ i, r = some i → table[i]? = some name) ∧
      (r = none ↔ name ∉ table) := by
  rcases find_spec table ((sorted_iff _).mp h) name with ⟨i, h1, h2⟩ | ⟨h1, h2⟩
  · refine ⟨some i, h1, ?_, ?_⟩
    · intro j hj; cases hj; exact h2
    · have := List.mem_of_getElem? h2
      simp [this]
  · exact ⟨none, h1, by simp, by simp [h2]⟩

/-- **C08** (robustness): even on an unsorted table `find` terminates within the table's bounds. -/
theorem C08_find_in_bounds (table : List EName) (name : EName) :
    ∃ r, find name table = .ok r ∧ ∀ i, r = some i → i < table.length := find_total table name

example : Sorted [⟨"", "a"⟩, ⟨"", "b"⟩, ⟨"u", "a"⟩] ∧
    find ⟨"u", "a"⟩ [⟨"", "a"⟩, ⟨"", "b"⟩, ⟨"u", "a"⟩] = .ok (some 2) ∧
    find ⟨"u", "b"⟩ [⟨"", "a"⟩, ⟨"", "b"⟩, ⟨"u", "a"⟩] = .ok none := by
  refine ⟨(sorted_iff _).mpr ?_, rfl, rfl⟩
  unfold SortedNames
  decide

/-! ## C09 -/

/-- **C09**, structs.  For every list of declared fields (position, name), looking a name up in the
generated table gives a field declared with exactly that name, gives nothing iff there is none, and, if
the declared names are distinct, gives the field `p` iff `p` is declared with that name. -/
theorem C09_struct_table (fields : List (Nat × DName)) (name : EName) :
    Sorted ((structTable fields).map Prod.snd) ∧
    ∃ r, lookup name (structTable fields) = .ok r ∧
      (∀ p, r = some p → ∃ d, (p, d) ∈ fields ∧ declared d = name) ∧
      (r = none ↔ ∀ p d, (p, d) ∈ fields → declared d ≠ name) ∧
      ((fields.map fun f => declared f.2).Nodup →
        ∀ p d, (p, d) ∈ fields → declared d = name → r = some p) := by
  have hs := structTable_sorted fields
  have hp := structTable_perm fields
  refine ⟨(sorted_iff _).mpr hs, ?_⟩
  exact table_spec fields name _ hs hp
where
  table_spec (fields : List (Nat × DName)) (name : EName) (t : List (Nat × EName))
      (hs : SortedNames (t.map Prod.snd)) (hp : t.Perm (fields.map fun p => (p.1, p.2.expanded))) :
      ∃ r, lookup name t = .ok r ∧
      (∀ p, r = some p → ∃ d, (p, d) ∈ fields ∧ declared d = name) ∧
      (r = none ↔ ∀ p d, (p, d) ∈ fields → declared d ≠ name) ∧
      ((fields.map fun f => declared f.2).Nodup →
        ∀ p d, (p, d) ∈ fields → declared d = name → r = some p) := by
    obtain ⟨r, hr⟩ := lookup_total t name
    refine ⟨r, hr, ?_, ?_, ?_⟩
    · intro p hrp
      subst hrp
      unfold lookup at hr
      rcases find_spec _ hs name with ⟨i, h1, h2⟩ | ⟨h1, h2⟩
      · rw [h1] at hr
        simp only at hr
        rw [List.getElem?_map] at h2
        cases hi : t[i]? with
        | none => rw [hi] at h2; simp at h2
        | some q =>
          rw [hi] at hr h2
          simp at hr h2
          have := hp.mem_iff.mp (List.mem_of_getElem? hi)
          obtain ⟨⟨a, d⟩, hm, he⟩ := List.mem_map.mp this
          refine ⟨d, ?_, ?_⟩
          · rw [← hr, ← he]; exact hm
          · rw [← h2, ← he]; rfl
      · rw [h1] at hr; simp at hr
    · have := lookup_sorted_none t hs name
      rw [hr] at this
      simp only [Except.ok.injEq] at this
      rw [this, (hp.map Prod.snd).mem_iff]
      constructor
      · intro h p d hm he
        apply h
        simp only [List.map_map, List.mem_map, Function.comp]
        exact ⟨(p, d), hm, he⟩
      · intro h hm
        simp only [List.map_map, List.mem_map, Function.comp] at hm
        obtain ⟨⟨p, d⟩, hm, he⟩ := hm
        exact h p d hm he
    · intro hn p d hm he
      have hn' : (t.map Prod.snd).Nodup := by
        rw [(hp.map Prod.snd).nodup_iff, List.map_map]
        exact hn
      have := (lookup_sorted t hs hn' name p).mpr (hp.mem_iff.mpr
        (List.mem_map.mpr ⟨(p, d), hm, by rw [← he]; rfl⟩))
      rw [hr] at this
      exact Except.ok.inj this

/-- **C09**, enums, under the side condition that no variant without prefix comes, by its local name, after one whose prefix is
mapped to the empty URL (missing: see `C09_enum_table_counterexample`). -/
theorem C09_enum_table_partial (variants : List (Nat × DName))
    (hns : NoneFirst (variants.map Prod.snd)) (name : EName) :
    Sorted ((enumTable variants).map Prod.snd) ∧
    ∃ r, lookup name (enumTable variants) = .ok r ∧
      (∀ p, r = some p → ∃ d, (p, d) ∈ variants ∧ declared d = name) ∧
      (r = none ↔ ∀ p d, (p, d) ∈ variants → declared d ≠ name) ∧
      ((variants.map fun f => declared f.2).Nodup →
        ∀ p d, (p, d) ∈ variants → declared d = name → r = some p) := by
  have hs := enumTable_sorted variants hns
  exact ⟨(sorted_iff _).mpr hs, C09_struct_table.table_spec variants name _ hs (enumTable_perm variants)⟩

example := C09_enum_table_partial [(0, ⟨some "u", "b"⟩), (1, ⟨some "u", "z"⟩), (2, ⟨none, "a"⟩)] (by unfold NoneFirst; decide) ⟨"u", "z"⟩

/-- **C09**, enums: the side condition is exactly the one under which the table is sorted. -/
theorem C09_enum_sorted_iff (variants : List (Nat × DName)) :
    Sorted ((enumTable variants).map Prod.snd) ↔ NoneFirst (variants.map Prod.snd) :=
  ⟨fun h => enumTable_sorted_only variants ((sorted_iff _).mp h), fun h => (sorted_iff _).mpr (enumTable_sorted variants h)⟩

/-- **C09 fails for enums in general**: variants are sorted by their *optional* namespace, where "no
namespace" comes before the empty namespace, so with a prefix mapped to the empty URL the table is not
sorted and a declared variant (here `y`, which has no prefix) is not found. -/
theorem C09_enum_table_counterexample :
    ∃ (variants : List (Nat × DName)) (name : EName),
      (∃ p d, (p, d) ∈ variants ∧ declared d = name) ∧
      (variants.map fun f => declared f.2).Nodup ∧
      lookup name (enumTable variants) = .ok none := by
  refine ⟨[(0, ⟨none, "y"⟩), (1, ⟨none, "z"⟩), (2, ⟨some "", "a"⟩), (3, ⟨some "", "b"⟩)], ⟨"", "y"⟩, ?_, ?_, ?_⟩
  · exact ⟨0, ⟨none, "y"⟩, by simp, rfl⟩
  · decide
  · rfl

example : lookup ⟨"u", "b"⟩ (structTable [(0, ⟨some "u", "b"⟩), (2, ⟨none, "z"⟩), (3, ⟨some "u", "a"⟩)])
    = .ok (some 0) := rfl
/-- With a prefix for the empty URL, but in order. -/
example : lookup ⟨"", "z"⟩ (enumTable [(0, ⟨some "u", "b"⟩), (1, ⟨some "", "z"⟩), (2, ⟨none, "a"⟩)]) = .ok (some 1) ∧
    NoneFirst [(⟨some "u", "b"⟩ : DName), ⟨some "", "z"⟩, ⟨none, "a"⟩] := by
  refine ⟨rfl, ?_⟩
  intro d hd e he h1 h2
  simp at hd he
  rcases hd with rfl | rfl | rfl <;> rcases he with rfl | rfl | rfl <;> simp at h1 h2 ⊢

/-! ## C38 -/

/-- **C38.** The displayed form determines the name, for names without braces. -/
theorem C38_display_injective (a b : EName) (ha : NoBraces a.ns ∧ NoBraces a.loc)
    (hb : NoBraces b.ns ∧ NoBraces b.loc) (h : a.display = b.display) : a = b := by
  have key : ∀ n : EName, n.display.toList =
      if n.ns = "" then n.loc.toList else '{' :: (n.ns.toList ++ '}' :: n.loc.toList) := by
    intro n
    unfold EName.display
    split <;> simp
  have hl := congrArg String.toList h
  rw [key, key] at hl
  have split_eq : ∀ (x y u v : List Char), '}' ∉ x → '}' ∉ y → x ++ '}' :: u = y ++ '}' :: v → x = y ∧ u = v := by
    intro x
    induction x with
    | nil =>
      intro y u v _ hy he
      cases y with
      | nil => simpa using he
      | cons c y => simp at he hy; exact absurd he.1 hy.1
    | cons c x ih =>
      intro y u v hx hy he
      cases y with
      | nil => simp at he hx; exact absurd he.1.symm hx.1
      | cons d y =>
        simp at he hx hy
        obtain ⟨e1, e2⟩ := ih y u v hx.2 hy.2 he.2
        exact ⟨by rw [he.1, e1], e2⟩
  cases a with | mk an al =>
  cases b with | mk bn bl =>
  simp only at *
  by_cases h1 : an = "" <;> by_cases h2 : bn = ""
  · simp only [h1, h2, if_true] at hl
    rw [h1, h2, String.toList_inj.mp hl]
  · exfalso
    simp only [h1, h2, if_true, if_false] at hl
    have := (ha.2 '{' (by rw [hl]; simp)).1
    exact this rfl
  · exfalso
    simp only [h1, h2, if_true, if_false] at hl
    have := (hb.2 '{' (by rw [← hl]; simp)).1
    exact this rfl
  · simp only [h1, h2, if_false, List.cons.injEq, true_and] at hl
    obtain ⟨e1, e2⟩ := split_eq _ _ _ _ (fun hm => (ha.1 _ hm).2 rfl) (fun hm => (hb.1 _ hm).2 rfl) hl
    rw [String.toList_inj.mp e1, String.toList_inj.mp e2]

/-- The restriction to names without braces is needed. -/
theorem C38_braces_counterexample : ∃ a b : EName, a ≠ b ∧ a.display = b.display :=
  ⟨⟨"", "{u}l"⟩, ⟨"u", "l"⟩, by decide, by decide⟩

example : NoBraces "http://a/b" ∧ NoBraces "x-y" ∧ EName.display ⟨"http://a/b", "x-y"⟩ = "{http://a/b}x-y" := by
  refine ⟨?_, ?_, by decide⟩ <;> (intro c; revert c; decide)

end SX
