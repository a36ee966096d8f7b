import Verif.Spec.Cost
import Verif.Proof.Namespaces

/- The counts for the assignment of prefixes. -/
namespace SX.Cost

theorem searchPrefix_value (m : SMap String) (p u : String) (fuel i : Nat) : (searchPrefix m p u fuel i).2 = SX.searchPrefix m p u fuel i := by
  induction fuel generalizing i with
  | zero => rfl
  | succ fuel ih =>
    simp only [searchPrefix, SX.searchPrefix]
    generalize nsPut m (numbered p i) u = q
    obtain ⟨m', _ | _⟩ := q
    · exact ih _
    · rfl

theorem assignRequired_value (m : SMap String) (u : String) (e : NsEntry) : (assignRequired m u e).2 = SX.assignRequired m u e := by
  have hs : (if e.requested = "" then searchPrefix m "ns" u (m.length + 1) 1 else searchPrefix m e.requested u (m.length + 1) 2).2 =
      (if e.requested = "" then SX.searchPrefix m "ns" u (m.length + 1) 1 else SX.searchPrefix m e.requested u (m.length + 1) 2) := by
    split <;> exact searchPrefix_value ..
  simp only [assignRequired, SX.assignRequired]
  split
  · generalize nsPut m e.requested u = q
    obtain ⟨m', _ | _⟩ := q
    · exact hs
    · rfl
  · exact hs

theorem passRequired_value (m : SMap String) (l : NsBuilder) : (passRequired m l).2 = SX.passRequired m l := by
  induction l generalizing m with
  | nil => rfl
  | cons x l ih =>
    obtain ⟨u, e⟩ := x
    simp only [passRequired, SX.passRequired]
    split
    · rw [← assignRequired_value]
      generalize assignRequired m u e = q
      obtain ⟨n, _ | ⟨m', p⟩⟩ := q
      · rfl
      · dsimp only
        rw [← ih]
        generalize passRequired m' l = q
        obtain ⟨k, _ | _⟩ := q <;> rfl
    · rw [← ih]
      generalize passRequired m l = q
      obtain ⟨k, _ | _⟩ := q <;> rfl

theorem passInherited_value (m : SMap String) (l : NsBuilder) : (passInherited m l).2 = SX.passInherited m l := by
  induction l generalizing m with
  | nil => rfl
  | cons x l ih =>
    obtain ⟨u, e⟩ := x
    simp only [passInherited, SX.passInherited]
    split
    · rw [← ih]
    · generalize nsPut m e.requested u = q
      obtain ⟨m', _ | _⟩ := q <;> (dsimp only; rw [← ih])

theorem finalize_value (b : NsBuilder) : (finalize b).2 = b.finalize := by
  simp only [finalize, NsBuilder.finalize]
  rw [← passRequired_value]
  generalize passRequired [] b = q
  obtain ⟨n, _ | ⟨m, b'⟩⟩ := q
  · rfl
  · dsimp only
    rw [← passInherited_value]

/-! ### Bounds -/

theorem numbered_ne_self (p : String) (i : Nat) : numbered p i ≠ p := by
  intro h
  have h1 : (numbered p i).toList.length = p.toList.length := by rw [h]
  simp only [numbered, String.toList_append, String.toList_ofList, List.length_append] at h1
  exact (natDigits_spec i).1 (List.eq_nil_of_length_eq_zero (by omega))

/-- All prefixes tried but the last are taken. -/
theorem searchPrefix_taken (m : SMap String) (p u : String) (fuel i j : Nat) (h1 : i ≤ j) (h2 : j + 1 < i + (searchPrefix m p u fuel i).1) :
    numbered p j ∈ m.keys := by
  induction fuel generalizing i with
  | zero => simp only [searchPrefix] at h2; omega
  | succ fuel ih =>
    simp only [searchPrefix] at h2
    cases hq : nsPut m (numbered p i) u with | mk m' b =>
    rw [hq] at h2
    cases b with
    | true => dsimp only at h2; omega
    | false =>
      dsimp only at h2
      by_cases hij : i = j
      · subst hij
        have := (nsPut_false hq).1
        by_cases hk : numbered p i ∈ m.keys
        · exact hk
        · rw [(SMap.get_none m _).mpr hk] at this
          simp at this
      · exact ih (i + 1) (by omega) (by omega)

theorem searchPrefix_tried (m : SMap String) (p u : String) (fuel i : Nat) (taken : List String) (hn : taken.Nodup) (ht : ∀ x ∈ taken, x ∈ m.keys)
    (hd : ∀ x ∈ taken, ∀ j, numbered p j ≠ x) : (searchPrefix m p u fuel i).1 + taken.length ≤ m.length + 1 := by
  have hnd : (taken ++ (List.range ((searchPrefix m p u fuel i).1 - 1)).map fun j => numbered p (i + j)).Nodup := by
    rw [List.nodup_append]
    refine ⟨hn, ?_, ?_⟩
    · rw [List.nodup_iff_pairwise_ne, List.pairwise_map]
      have := List.nodup_range (n := (searchPrefix m p u fuel i).1 - 1)
      rw [List.nodup_iff_pairwise_ne] at this
      apply this.imp
      intro a b hab he
      have := numbered_inj _ _ _ he
      omega
    · intro a ha b hb he
      obtain ⟨j, -, rfl⟩ := List.mem_map.mp hb
      exact hd a ha _ he.symm
  have := nodup_length_le _ m.keys hnd (by
    intro a ha
    rcases List.mem_append.mp ha with ha | ha
    · exact ht a ha
    · obtain ⟨j, hj, rfl⟩ := List.mem_map.mp ha
      have := List.mem_range.mp hj
      exact searchPrefix_taken m p u fuel i (i + j) (by omega) (by omega))
  simp only [List.length_append, List.length_map, List.length_range, SMap.keys] at this
  omega

theorem assignRequired_tried (m : SMap String) (u : String) (e : NsEntry) : (assignRequired m u e).1 ≤ m.length + 1 := by
  have hs : ∀ taken : List String, taken.Nodup → (∀ x ∈ taken, x ∈ m.keys) → (∀ x ∈ taken, x = e.requested) →
      (if e.requested = "" then searchPrefix m "ns" u (m.length + 1) 1 else searchPrefix m e.requested u (m.length + 1) 2).1 + taken.length ≤ m.length + 1 := by
    intro taken hn ht he
    split
    · rename_i h
      exact searchPrefix_tried m _ u _ _ taken hn ht (fun x hx j => by rw [he x hx, h]; exact numbered_ne_empty _ _)
    · exact searchPrefix_tried m _ u _ _ taken hn ht (fun x hx j => by rw [he x hx]; exact numbered_ne_self _ _)
  simp only [assignRequired]
  split
  · cases hq : nsPut m e.requested u with | mk m' b =>
    cases b with
    | true => simp
    | false =>
      have hk : e.requested ∈ m.keys := by
        have := (nsPut_false hq).1
        by_cases hk : e.requested ∈ m.keys
        · exact hk
        · rw [(SMap.get_none m _).mpr hk] at this
          simp at this
      have := hs [e.requested] (by simp) (by simpa using hk) (by simp)
      simpa using this
  · simpa using hs [] (by simp) (by simp) (by simp)

theorem insertNew_length (k : String) (a : String) (m : SMap String) : (SMap.insertNew k a m).length = m.length + 1 := by
  induction m with
  | nil => rfl
  | cons e m ih =>
    simp only [SMap.insertNew]
    split
    · rfl
    · simp [ih]

/-- How many mappings are required. -/
def required (l : NsBuilder) : Nat := (l.filter fun x => x.2.required).length

theorem required_cons (x : String × NsEntry) (l : NsBuilder) : required (x :: l) = (if x.2.required then 1 else 0) + required l := by
  simp only [required, List.filter_cons]
  split <;> simp; omega

theorem required_le (l : NsBuilder) : required l ≤ l.length := List.length_filter_le ..

theorem passRequired_tried (m : SMap String) (l : NsBuilder) :
    2 * (passRequired m l).1 ≤ required l * (required l + 1) + 2 * (m.length * required l) := by
  induction l generalizing m with
  | nil => simp [passRequired, required]
  | cons x l ih =>
    obtain ⟨u, e⟩ := x
    simp only [passRequired, required_cons]
    split
    · rename_i hr
      have h1 := assignRequired_tried m u e
      have h2 := assignRequired_value m u e
      obtain ⟨p, h3, -⟩ := assignRequired_spec m u e
      rw [h3] at h2
      revert h1 h2
      generalize assignRequired m u e = q
      obtain ⟨n, q⟩ := q
      intro h1 h2
      dsimp only at h2
      subst h2
      dsimp only at h1 ⊢
      have h4 := ih (SMap.insertNew p u m)
      rw [insertNew_length] at h4
      generalize hr : required l = r at h4
      simp only [Nat.add_mul, Nat.mul_add, Nat.one_mul, Nat.mul_one] at h4 ⊢
      generalize passRequired (SMap.insertNew p u m) l = q at h4
      obtain ⟨k, _ | _⟩ := q <;> dsimp only at h4 ⊢ <;> omega
    · have h4 := ih m
      generalize passRequired m l = q at h4
      obtain ⟨k, _ | _⟩ := q <;> simpa using h4

theorem passRequired_lengths (m : SMap String) (l : NsBuilder) (n : Nat) (m' : SMap String) (l' : NsBuilder) (h : passRequired m l = (n, .ok (m', l'))) :
    l'.length = l.length ∧ required l' = required l := by
  induction l generalizing m n m' l' with
  | nil => cases h; exact ⟨rfl, rfl⟩
  | cons x l ih =>
    obtain ⟨u, e⟩ := x
    simp only [passRequired] at h
    revert h
    split
    · generalize assignRequired m u e = q
      obtain ⟨k, _ | ⟨m1, p⟩⟩ := q
      · intro h; cases h
      · dsimp only
        generalize hq : passRequired m1 l = q
        obtain ⟨j, _ | ⟨m2, l2⟩⟩ := q
        · intro h; cases h
        · intro h
          cases h
          obtain ⟨h1, h2⟩ := ih _ _ _ _ hq
          simp only [List.length_cons, required_cons, h1, h2, and_self]
    · generalize hq : passRequired m l = q
      obtain ⟨j, _ | ⟨m2, l2⟩⟩ := q
      · intro h; cases h
      · intro h
        cases h
        obtain ⟨h1, h2⟩ := ih _ _ _ _ hq
        simp only [List.length_cons, required_cons, h1, h2, and_self]

theorem passInherited_tried (m : SMap String) (l : NsBuilder) : (passInherited m l).1 + required l = l.length := by
  induction l generalizing m with
  | nil => rfl
  | cons x l ih =>
    obtain ⟨u, e⟩ := x
    simp only [passInherited, required_cons]
    split
    · have := ih m
      dsimp only
      simp only [List.length_cons]
      omega
    · generalize nsPut m e.requested u = q
      obtain ⟨m', _ | _⟩ := q <;> (have := ih m'; dsimp only; simp only [List.length_cons]; omega)

theorem finalize_tried (b : NsBuilder) : 2 * (finalize b).1 ≤ required b * (required b + 1) + 2 * (b.length - required b) := by
  have h := passRequired_tried [] b
  have h2 := passRequired_lengths [] b
  simp only [finalize]
  revert h h2
  generalize passRequired [] b = q
  obtain ⟨n, _ | ⟨m, b'⟩⟩ := q
  · intro h h2
    dsimp only at h ⊢
    simp only [List.length_nil, Nat.zero_mul] at h
    omega
  · intro h h2
    obtain ⟨h2, h3⟩ := h2 _ _ _ rfl
    have h4 := passInherited_tried m b'
    have h5 := required_le b
    dsimp only at h ⊢
    simp only [List.length_nil, Nat.zero_mul] at h
    omega

/-! ### Without conflicts -/

theorem assignRequired_once (m : SMap String) (u : String) (e : NsEntry) (hn : e.needsPrefix = true → e.requested ≠ "") (hm : m.get e.requested = none) :
    assignRequired m u e = (1, .ok (SMap.insertNew e.requested u m, e.requested)) := by
  have hc : (!(e.needsPrefix && e.requested == "")) = true := by
    cases h : e.needsPrefix with
    | false => rfl
    | true => simpa using hn h
  simp only [assignRequired, hc, if_true]
  simp [nsPut, hm]

theorem passRequired_once (m : SMap String) (l : NsBuilder)
    (hd : (l.filter fun x => x.2.required).Pairwise fun x y => x.2.requested ≠ y.2.requested)
    (hn : ∀ x ∈ l, x.2.required = true → x.2.needsPrefix = true → x.2.requested ≠ "")
    (hm : ∀ x ∈ l, x.2.required = true → m.get x.2.requested = none) : (passRequired m l).1 = required l := by
  induction l generalizing m with
  | nil => rfl
  | cons x l ih =>
    obtain ⟨u, e⟩ := x
    simp only [passRequired, required_cons]
    split
    · rename_i hr
      rw [List.filter_cons] at hd
      simp only [hr, if_true, List.pairwise_cons] at hd
      have h0 := hm (u, e) (by simp) hr
      rw [assignRequired_once m u e (hn (u, e) (by simp) hr) h0]
      dsimp only
      have := ih (SMap.insertNew e.requested u m) hd.2 (fun x hx => hn x (List.mem_cons_of_mem _ hx)) (by
        intro x hx hxr
        rw [SMap.get_insertNew m e.requested _ u h0]
        rw [if_neg (hd.1 x (List.mem_filter.mpr ⟨hx, hxr⟩))]
        exact hm x (List.mem_cons_of_mem _ hx) hxr)
      generalize passRequired (SMap.insertNew e.requested u m) l = q at this
      obtain ⟨k, _ | _⟩ := q <;> dsimp only at this ⊢ <;> omega
    · rename_i hr
      rw [List.filter_cons] at hd
      simp only [hr] at hd
      have := ih m (by simpa using hd) (fun x hx => hn x (List.mem_cons_of_mem _ hx)) (fun x hx => hm x (List.mem_cons_of_mem _ hx))
      generalize passRequired m l = q at this
      obtain ⟨k, _ | _⟩ := q <;> simpa using this

/-! ### With as many conflicts as possible -/

theorem searchPrefix_count (m : SMap String) (p u : String) (fuel i k : Nat) (hf : k < fuel) (ht : ∀ j, i ≤ j → j < i + k → (m.get (numbered p j)).isSome)
    (hk : m.get (numbered p (i + k)) = none) :
    searchPrefix m p u fuel i = (k + 1, .ok (SMap.insertNew (numbered p (i + k)) u m, numbered p (i + k))) := by
  induction fuel generalizing i k with
  | zero => omega
  | succ fuel ih =>
    simp only [searchPrefix]
    cases k with
    | zero =>
      have hk : m.get (numbered p i) = none := hk
      have : nsPut m (numbered p i) u = (SMap.insertNew (numbered p i) u m, true) := by simp [nsPut, hk]
      rw [this]
      rfl
    | succ k =>
      have h1 : (m.get (numbered p i)).isSome := ht i (Nat.le_refl _) (by omega)
      have : nsPut m (numbered p i) u = (m, false) := by simp [nsPut, h1]
      rw [this]
      have e : i + (k + 1) = i + 1 + k := by omega
      rw [ih (i + 1) k (by omega) (fun j h1 h2 => ht j (by omega) (by omega)) (by rw [← e]; exact hk), e]

/-- `m` has exactly the prefixes `p`, `p2`, …, as many as `k`. -/
structure Filled (p : String) (k : Nat) (m : SMap String) : Prop where
  length : m.length = k
  self : 0 < k → (m.get p).isSome
  upto : ∀ j, 2 ≤ j → j ≤ k → (m.get (numbered p j)).isSome
  beyond : ∀ j, k < j → m.get (numbered p j) = none
  free : k = 0 → m.get p = none

theorem Filled.step {p : String} {k : Nat} {m : SMap String} (h : Filled p k m) (hp : p ≠ "") (u : String) (e : NsEntry) (hr : e.requested = p) :
    ∃ m' q, assignRequired m u e = (k + 1, .ok (m', q)) ∧ Filled p (k + 1) m' := by
  have hc : (!(e.needsPrefix && e.requested == "")) = true := by
    rw [hr]
    cases e.needsPrefix with
    | false => rfl
    | true => simpa using hp
  cases k with
  | zero =>
    have h0 := h.free rfl
    refine ⟨SMap.insertNew p u m, p, ?_, ?_⟩
    · have := assignRequired_once m u e (fun _ => by rw [hr]; exact hp) (by rw [hr]; exact h0)
      rw [hr] at this
      exact this
    · refine ⟨by rw [insertNew_length, h.length], fun _ => ?_, fun j h1 h2 => by omega, fun j hj => ?_, fun h => by omega⟩
      · rw [SMap.get_insertNew m p p u h0]; simp
      · rw [SMap.get_insertNew m p _ u h0, if_neg (fun he => numbered_ne_self p j he.symm)]
        exact h.beyond j (by omega)
  | succ k =>
    have hs := h.self (by omega)
    have hput : nsPut m e.requested u = (m, false) := by simp [nsPut, hr, hs]
    have hfree := h.beyond (2 + k) (by omega)
    have hsearch := searchPrefix_count m p u (m.length + 1) 2 k (by rw [h.length]; omega) (fun j h1 h2 => h.upto j h1 (by omega)) hfree
    refine ⟨SMap.insertNew (numbered p (2 + k)) u m, numbered p (2 + k), ?_, ?_⟩
    · simp only [assignRequired, hc, if_true, hput]
      simp only [hr, hp, if_false, hsearch]
    · refine ⟨by rw [insertNew_length, h.length], fun _ => ?_, fun j h1 h2 => ?_, fun j hj => ?_, fun h => by omega⟩
      · rw [SMap.get_insertNew m _ p u hfree, if_neg (numbered_ne_self p _)]
        exact hs
      · rw [SMap.get_insertNew m _ _ u hfree]
        split
        · rfl
        · rename_i hne
          refine h.upto j h1 ?_
          by_cases hj : j = 2 + k
          · subst hj; exact absurd rfl hne
          · omega
      · rw [SMap.get_insertNew m _ _ u hfree, if_neg]
        · exact h.beyond j (by omega)
        · intro he
          have := numbered_inj _ _ _ he
          omega

theorem passRequired_worst (p : String) (hp : p ≠ "") (m : SMap String) (k : Nat) (hm : Filled p k m) (l : NsBuilder)
    (hl : ∀ x ∈ l, x.2.required = true ∧ x.2.requested = p) :
    2 * (passRequired m l).1 = l.length * (l.length + 1) + 2 * (k * l.length) := by
  induction l generalizing m k with
  | nil => simp [passRequired]
  | cons x l ih =>
    obtain ⟨u, e⟩ := x
    obtain ⟨h1, h2⟩ := hl (u, e) (by simp)
    obtain ⟨m', q, h3, h4⟩ := hm.step hp u e h2
    simp only at h1
    simp only [passRequired, h1, if_true, h3]
    have := ih m' (k + 1) h4 (fun x hx => hl x (List.mem_cons_of_mem _ hx))
    generalize passRequired m' l = q at this
    simp only [List.length_cons, Nat.add_mul, Nat.mul_add, Nat.one_mul, Nat.mul_one] at this ⊢
    obtain ⟨j, _ | _⟩ := q <;> dsimp only at this ⊢ <;> omega

theorem required_all (l : NsBuilder) (hl : ∀ x ∈ l, x.2.required = true) : required l = l.length := by
  induction l with
  | nil => rfl
  | cons x l ih =>
    rw [required_cons, hl x (by simp), ih (fun x hx => hl x (List.mem_cons_of_mem _ hx))]
    simp; omega

end SX.Cost
