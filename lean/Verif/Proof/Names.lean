import Verif.Spec.Names

namespace SX

theorem cmp_eq_iff (a b : EName) : a.cmp b = .eq ↔ a = b := by
  cases a with | mk an al =>
  cases b with | mk bn bl =>
  unfold EName.cmp
  simp only [Ordering.then_eq_eq, Std.LawfulEqCmp.compare_eq_iff_eq, EName.mk.injEq]

theorem then_isLE (a b : Ordering) : (a.then b).isLE = true ↔ a = .lt ∨ (a = .eq ∧ b.isLE = true) := by
  cases a <;> simp

theorem cmp_swap (a b : EName) : (a.cmp b).swap = b.cmp a := by
  unfold EName.cmp
  rw [Ordering.swap_then, Std.OrientedCmp.eq_swap (cmp := compare) (a := b.ns),
    Std.OrientedCmp.eq_swap (cmp := compare) (a := b.loc)]

instance : Std.TransCmp EName.cmp where
  eq_swap := fun {a b} => by rw [← cmp_swap b a]
  isLE_trans := by
    intro a b c h1 h2
    unfold EName.cmp at *
    rw [then_isLE] at *
    rcases h1 with h1 | ⟨h1, h1'⟩ <;> rcases h2 with h2 | ⟨h2, h2'⟩
    · exact .inl (Std.TransCmp.lt_trans h1 h2)
    · left; rw [Std.LawfulEqCmp.eq_of_compare h2] at h1; exact h1
    · left; rw [Std.LawfulEqCmp.eq_of_compare h1]; exact h2
    · right
      refine ⟨?_, Std.TransCmp.isLE_trans h1' h2'⟩
      rw [Std.LawfulEqCmp.eq_of_compare h1]; exact h2

theorem dcmp_swap (a b : DName) : (a.cmpOpt b).swap = b.cmpOpt a := by
  unfold DName.cmpOpt
  rw [Ordering.swap_then, Std.OrientedCmp.eq_swap (cmp := compare) (a := b.ns),
    Std.OrientedCmp.eq_swap (cmp := compare) (a := b.loc)]

instance : Std.TransCmp DName.cmpOpt where
  eq_swap := fun {a b} => by rw [← dcmp_swap b a]
  isLE_trans := by
    intro a b c h1 h2
    unfold DName.cmpOpt at *
    rw [then_isLE] at *
    rcases h1 with h1 | ⟨h1, h1'⟩ <;> rcases h2 with h2 | ⟨h2, h2'⟩
    · exact .inl (Std.TransCmp.lt_trans h1 h2)
    · left; rw [Std.LawfulEqCmp.eq_of_compare h2] at h1; exact h1
    · left; rw [Std.LawfulEqCmp.eq_of_compare h1]; exact h2
    · right
      refine ⟨?_, Std.TransCmp.isLE_trans h1' h2'⟩
      rw [Std.LawfulEqCmp.eq_of_compare h1]; exact h2

theorem insertBy_perm {α} (cmp : α → α → Ordering) (a : α) (l : List α) :
    (insertBy cmp a l).Perm (a :: l) := by
  induction l with
  | nil => exact .refl _
  | cons b l ih =>
    unfold insertBy
    split
    · exact (List.Perm.cons b ih).trans (List.Perm.swap a b l)
    · exact .refl _

theorem sortBy_perm {α} (cmp : α → α → Ordering) (l : List α) : (sortBy cmp l).Perm l := by
  induction l with
  | nil => exact .refl _
  | cons a l ih => exact (insertBy_perm cmp a _).trans (List.Perm.cons a ih)

theorem isLE_of_ne_gt {o : Ordering} (h : o ≠ .gt) : o.isLE = true := by cases o <;> simp_all

theorem insertBy_sorted {α} (cmp : α → α → Ordering) [Std.TransCmp cmp] (a : α) (l : List α)
    (h : l.Pairwise (fun x y => (cmp x y).isLE = true)) :
    (insertBy cmp a l).Pairwise (fun x y => (cmp x y).isLE = true) := by
  induction l with
  | nil => simp [insertBy]
  | cons b l ih =>
    rw [List.pairwise_cons] at h
    unfold insertBy
    split
    · rename_i hgt
      rw [List.pairwise_cons]
      refine ⟨?_, ih h.2⟩
      intro x hx
      have := (insertBy_perm cmp a l).mem_iff.mp hx
      rcases List.mem_cons.mp this with hx | hx
      · subst hx
        have : cmp b x = (cmp x b).swap := Std.OrientedCmp.eq_swap
        rw [this, hgt]; rfl
      · exact h.1 x hx
    · rename_i hng
      have hab := isLE_of_ne_gt hng
      rw [List.pairwise_cons, List.pairwise_cons]
      refine ⟨?_, h⟩
      intro x hx
      rcases List.mem_cons.mp hx with hx | hx
      · subst hx; exact hab
      · exact Std.TransCmp.isLE_trans hab (h.1 x hx)

theorem sortBy_sorted {α} (cmp : α → α → Ordering) [Std.TransCmp cmp] (l : List α) :
    (sortBy cmp l).Pairwise (fun x y => (cmp x y).isLE = true) := by
  induction l with
  | nil => simp [sortBy]
  | cons a l ih => exact insertBy_sorted cmp a _ ih

/-- Table order used by `find`. -/
def SortedNames (t : List EName) : Prop := t.Pairwise (fun x y => (x.cmp y).isLE = true)

theorem sorted_getElem {t : List EName} (h : SortedNames t) {i j : Nat} {x y : EName} (hij : i ≤ j)
    (hi : t[i]? = some x) (hj : t[j]? = some y) : (x.cmp y).isLE = true := by
  rcases Nat.lt_or_ge i j with hlt | hge
  · have h' := List.pairwise_iff_getElem.mp h
    obtain ⟨hi1, hi2⟩ := List.getElem?_eq_some_iff.mp hi
    obtain ⟨hj1, hj2⟩ := List.getElem?_eq_some_iff.mp hj
    have := h' i j hi1 hj1 hlt
    rw [hi2, hj2] at this
    exact this
  · have : i = j := by omega
    subst this
    rw [hi] at hj
    cases hj
    rw [(cmp_eq_iff x x).mpr rfl]; rfl

theorem bsearch_spec (t : List EName) (ht : SortedNames t) (name : EName) (fuel left right : Nat)
    (hr : right ≤ t.length) (hf : right - left ≤ fuel)
    (hL : ∀ i x, i < left → t[i]? = some x → x ≠ name)
    (hR : ∀ i x, right ≤ i → t[i]? = some x → x ≠ name) :
    (∃ i, bsearch (fun x => x.cmp name) t fuel left right = .ok (some i) ∧ t[i]? = some name) ∨
    (bsearch (fun x => x.cmp name) t fuel left right = .ok none ∧ name ∉ t) := by
  have hnone : ¬ left < right → name ∉ t := by
    intro hlt hm
    obtain ⟨i, hi⟩ := List.mem_iff_getElem?.mp hm
    rcases Nat.lt_or_ge i left with h | h
    · exact hL i name h hi rfl
    · exact hR i name (by omega) hi rfl
  induction fuel generalizing left right with
  | zero =>
    right
    have : ¬ left < right := by omega
    unfold bsearch
    rw [if_neg this]
    exact ⟨rfl, hnone this⟩
  | succ fuel ih =>
    unfold bsearch
    by_cases hlt : left < right
    · rw [if_pos hlt]
      simp only
      generalize hm : left + (right - left) / 2 = mid
      have hmid : mid < t.length := by omega
      rw [List.getElem?_eq_getElem hmid]
      simp only
      cases hc : (t[mid]).cmp name with
      | eq =>
        left
        refine ⟨mid, rfl, ?_⟩
        rw [List.getElem?_eq_getElem hmid, (cmp_eq_iff _ _).mp hc]
      | lt =>
        refine ih (mid + 1) right hr (by omega) ?_ hR ?_
        · intro i x hi hx he
          subst he
          have := sorted_getElem ht (i := i) (j := mid) (by omega) hx (List.getElem?_eq_getElem hmid)
          have h2 : x.cmp t[mid] = (t[mid].cmp x).swap := Std.OrientedCmp.eq_swap
          rw [h2, hc] at this
          simp at this
        · intro hn hmem
          obtain ⟨i, hi⟩ := List.mem_iff_getElem?.mp hmem
          rcases Nat.lt_or_ge i right with h | h
          · have := sorted_getElem ht (i := i) (j := mid) (by omega) hi (List.getElem?_eq_getElem hmid)
            have h2 : name.cmp t[mid] = (t[mid].cmp name).swap := Std.OrientedCmp.eq_swap
            rw [h2, hc] at this
            simp at this
          · exact hR i name h hi rfl
      | gt =>
        refine ih left mid (by omega) (by omega) hL ?_ ?_
        · intro i x hi hx he
          subst he
          have := sorted_getElem ht (i := mid) (j := i) (by omega) (List.getElem?_eq_getElem hmid) hx
          rw [hc] at this
          simp at this
        · intro hn hmem
          obtain ⟨i, hi⟩ := List.mem_iff_getElem?.mp hmem
          rcases Nat.lt_or_ge i left with h | h
          · exact hL i name h hi rfl
          · have := sorted_getElem ht (i := mid) (j := i) (by omega) (List.getElem?_eq_getElem hmid) hi
            rw [hc] at this
            simp at this
    · rw [if_neg hlt]
      right
      exact ⟨rfl, hnone hlt⟩

theorem find_spec (t : List EName) (ht : SortedNames t) (name : EName) :
    (∃ i, find name t = .ok (some i) ∧ t[i]? = some name) ∨ (find name t = .ok none ∧ name ∉ t) := by
  refine bsearch_spec t ht name t.length 0 t.length (Nat.le_refl _) (by omega) (by omega) ?_
  intro i x hi hx
  have := (List.getElem?_eq_some_iff.mp hx).1
  omega

/-- Even on an unsorted table the search terminates and stays in range. -/
theorem bsearch_total (t : List EName) (cmp : EName → Ordering) (fuel left right : Nat)
    (hr : right ≤ t.length) (hf : right - left ≤ fuel) :
    ∃ r, bsearch cmp t fuel left right = .ok r ∧ ∀ i, r = some i → i < t.length := by
  induction fuel generalizing left right with
  | zero =>
    unfold bsearch
    rw [if_neg (by omega)]
    exact ⟨none, rfl, by simp⟩
  | succ fuel ih =>
    unfold bsearch
    by_cases hlt : left < right
    · rw [if_pos hlt]
      simp only
      generalize hm : left + (right - left) / 2 = mid
      have hmid : mid < t.length := by omega
      rw [List.getElem?_eq_getElem hmid]
      simp only
      cases cmp t[mid] with
      | eq => exact ⟨some mid, rfl, by intro i hi; cases hi; exact hmid⟩
      | lt => exact ih (mid + 1) right hr (by omega)
      | gt => exact ih left mid (by omega) (by omega)
    · rw [if_neg hlt]; exact ⟨none, rfl, by simp⟩

theorem find_total (t : List EName) (name : EName) :
    ∃ r, find name t = .ok r ∧ ∀ i, r = some i → i < t.length :=
  bsearch_total t _ t.length 0 t.length (Nat.le_refl _) (by omega)

theorem lookup_total (t : List (Nat × EName)) (name : EName) : ∃ r, lookup name t = .ok r := by
  obtain ⟨r, h1, h2⟩ := find_total (t.map Prod.snd) name
  unfold lookup
  rw [h1]
  cases r with
  | none => exact ⟨none, rfl⟩
  | some i =>
    have := h2 i rfl
    simp at this
    simp [this]

/-- On a sorted table whose names are pairwise different, `lookup` is exact. -/
theorem lookup_sorted (t : List (Nat × EName)) (ht : SortedNames (t.map Prod.snd))
    (hn : (t.map Prod.snd).Nodup) (name : EName) (p : Nat) :
    lookup name t = .ok (some p) ↔ (p, name) ∈ t := by
  unfold lookup
  rcases find_spec _ ht name with ⟨i, h1, h2⟩ | ⟨h1, h2⟩
  · rw [h1]
    simp only
    rw [List.getElem?_map] at h2
    cases hi : t[i]? with
    | none => rw [hi] at h2; simp at h2
    | some q =>
      rw [hi] at h2
      simp only [Option.map_some, Option.some.injEq] at h2
      simp only [Except.ok.injEq, Option.some.injEq]
      constructor
      · intro h
        have := List.mem_of_getElem? hi
        rw [← h, ← h2]; exact this
      · intro hm
        obtain ⟨j, hj⟩ := List.mem_iff_getElem?.mp hm
        have hij : i = j := by
          have e1 : (t.map Prod.snd)[i]? = some name := by rw [List.getElem?_map, hi]; simp [h2]
          have e2 : (t.map Prod.snd)[j]? = some name := by rw [List.getElem?_map, hj]; simp
          obtain ⟨l1, l1'⟩ := List.getElem?_eq_some_iff.mp e1
          obtain ⟨l2, l2'⟩ := List.getElem?_eq_some_iff.mp e2
          exact (List.getElem_inj hn).mp (l1'.trans l2'.symm)
        subst hij
        rw [hi] at hj; cases hj; rfl
  · rw [h1]
    simp only [reduceCtorEq, Except.ok.injEq, false_iff]
    intro hm
    exact h2 (List.mem_map.mpr ⟨_, hm, rfl⟩)

theorem lookup_sorted_none (t : List (Nat × EName)) (ht : SortedNames (t.map Prod.snd)) (name : EName) :
    lookup name t = .ok none ↔ name ∉ t.map Prod.snd := by
  unfold lookup
  rcases find_spec _ ht name with ⟨i, h1, h2⟩ | ⟨h1, h2⟩
  · rw [h1]
    simp only
    have hm := List.mem_of_getElem? h2
    rw [List.getElem?_map] at h2
    cases hi : t[i]? with
    | none => rw [hi] at h2; simp at h2
    | some q => simp only [Except.ok.injEq, reduceCtorEq, false_iff, Classical.not_not]; exact hm
  · rw [h1]; simp only [true_iff]; exact h2

theorem structTable_sorted (names : List (Nat × DName)) : SortedNames ((structTable names).map Prod.snd) := by
  unfold SortedNames structTable
  rw [List.pairwise_map]
  have : Std.TransCmp (fun a b : Nat × EName => a.2.cmp b.2) :=
    { eq_swap := fun {a b} => Std.OrientedCmp.eq_swap (cmp := EName.cmp)
      isLE_trans := fun h1 h2 => Std.TransCmp.isLE_trans (cmp := EName.cmp) h1 h2 }
  exact sortBy_sorted _ _

theorem structTable_perm (names : List (Nat × DName)) :
    (structTable names).Perm (names.map fun p => (p.1, p.2.expanded)) := sortBy_perm _ _

theorem enumTable_perm (names : List (Nat × DName)) :
    (enumTable names).Perm (names.map fun p => (p.1, p.2.expanded)) :=
  (sortBy_perm _ _).map _

/-- Under the side condition that no variant without namespace should come after one with the empty namespace, sorting by the
optional namespace is sorting by the namespace. -/
theorem cmpOpt_le (a b : DName) (hab : a.ns = none → b.ns = some "" → ¬ b.loc < a.loc)
    (h : (a.cmpOpt b).isLE = true) : (a.expanded.cmp b.expanded).isLE = true := by
  unfold DName.cmpOpt at h
  unfold EName.cmp DName.expanded
  rw [then_isLE] at *
  have hempty : ∀ s : String, s ≠ "" → compare "" s = .lt := by
    intro s hs
    show compareOfLessAndEq "" s = .lt
    unfold compareOfLessAndEq
    rw [if_pos]
    show "".toList < s.toList
    cases hl : s.toList with
    | nil => exact absurd (String.toList_eq_nil_iff.mp hl) hs
    | cons c l => exact List.Lex.nil
  cases hna : a.ns with
  | none =>
    cases hnb : b.ns with
    | none =>
      rw [hna, hnb] at h
      simp only [Option.getD_none]
      rcases h with h | h
      · exact absurd h (by decide)
      · exact .inr ⟨by simp, h.2⟩
    | some y =>
      simp only [Option.getD_none, Option.getD_some]
      by_cases hy : y = ""
      · subst hy
        right
        refine ⟨by simp, ?_⟩
        have := hab hna hnb
        cases hc : compare a.loc b.loc with
        | lt => rfl
        | eq => rfl
        | gt =>
          have h2 : compare b.loc a.loc = .lt := by rw [Std.OrientedCmp.eq_swap (cmp := compare), hc]; rfl
          exfalso
          apply this
          have h3 : compareOfLessAndEq b.loc a.loc = .lt := h2
          unfold compareOfLessAndEq at h3
          split at h3
          · assumption
          · split at h3 <;> simp at h3
      · exact .inl (hempty y hy)
  | some x =>
    cases hnb : b.ns with
    | none =>
      rw [hna, hnb] at h
      rcases h with h | ⟨h, _⟩ <;> exact absurd h (by simp [compare])
    | some y =>
      rw [hna, hnb] at h
      exact h

theorem enumTable_order (names : List (Nat × DName)) :
    List.Pairwise (fun a b : Nat × DName => (a.2.cmpOpt b.2).isLE = true) (sortBy (fun a b => a.2.cmpOpt b.2) names) := by
  have : Std.TransCmp (fun a b : Nat × DName => a.2.cmpOpt b.2) :=
    { eq_swap := fun {a b} => Std.OrientedCmp.eq_swap (cmp := DName.cmpOpt)
      isLE_trans := fun h1 h2 => Std.TransCmp.isLE_trans (cmp := DName.cmpOpt) h1 h2 }
  exact sortBy_sorted (fun a b : Nat × DName => a.2.cmpOpt b.2) names

theorem enumTable_sorted (names : List (Nat × DName)) (hns : Spec.NoneFirst (names.map Prod.snd)) :
    SortedNames ((enumTable names).map Prod.snd) := by
  unfold SortedNames enumTable
  rw [List.pairwise_map, List.pairwise_map]
  refine List.Pairwise.imp_of_mem ?_ (enumTable_order names)
  intro a b ha hb h
  refine cmpOpt_le a.2 b.2 ?_ h
  exact hns a.2 (List.mem_map.mpr ⟨a, (sortBy_perm _ _).mem_iff.mp ha, rfl⟩) b.2
    (List.mem_map.mpr ⟨b, (sortBy_perm _ _).mem_iff.mp hb, rfl⟩)

/-- The side condition is necessary. -/
theorem enumTable_sorted_only (names : List (Nat × DName)) (hs : SortedNames ((enumTable names).map Prod.snd)) :
    Spec.NoneFirst (names.map Prod.snd) := by
  unfold SortedNames enumTable at hs
  rw [List.pairwise_map, List.pairwise_map] at hs
  intro d hd e he hdn hen hlt
  obtain ⟨a, ha, rfl⟩ := List.mem_map.mp hd
  obtain ⟨b, hb, rfl⟩ := List.mem_map.mp he
  have ha := (sortBy_perm (fun a b : Nat × DName => a.2.cmpOpt b.2) names).mem_iff.mpr ha
  have hb := (sortBy_perm (fun a b : Nat × DName => a.2.cmpOpt b.2) names).mem_iff.mpr hb
  obtain ⟨i, hi, rfl⟩ := List.mem_iff_getElem.mp ha
  obtain ⟨j, hj, rfl⟩ := List.mem_iff_getElem.mp hb
  have ho := List.pairwise_iff_getElem.mp (enumTable_order names)
  have hs := List.pairwise_iff_getElem.mp hs
  rcases Nat.lt_trichotomy i j with hij | rfl | hij
  · have := hs i j hi hj hij
    unfold EName.cmp DName.expanded at this
    rw [then_isLE] at this
    simp only [hdn, hen, Option.getD_none, Option.getD_some] at this
    rcases this with h | ⟨-, h⟩
    · exact absurd h (by decide)
    · rw [Std.OrientedCmp.eq_swap (cmp := compare)] at h
      have h2 : compare (sortBy (fun a b : Nat × DName => a.2.cmpOpt b.2) names)[j].2.loc
          (sortBy (fun a b : Nat × DName => a.2.cmpOpt b.2) names)[i].2.loc = .lt := by
        show compareOfLessAndEq _ _ = _
        unfold compareOfLessAndEq
        rw [if_pos hlt]
      rw [h2] at h
      simp at h
  · rw [hdn] at hen; simp at hen
  · have := ho j i hj hi hij
    generalize (sortBy (fun a b : Nat × DName => a.2.cmpOpt b.2) names)[i] = x at this hdn
    generalize (sortBy (fun a b : Nat × DName => a.2.cmpOpt b.2) names)[j] = y at this hen
    unfold DName.cmpOpt at this
    rw [then_isLE, hdn, hen] at this
    rcases this with h | ⟨h, -⟩
    · exact absurd h (by decide)
    · exact absurd h (by decide)

end SX
