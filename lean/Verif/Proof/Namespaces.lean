import Verif.Model.Namespaces
import Verif.Proof.Text

/-
The namespace bookkeeping: maps, prefix assignment.
-/
namespace SX
open Spec

def SMap.keys {α : Type} (m : SMap α) : List String := m.map Prod.fst

theorem SMap.get_nil {α : Type} (k : String) : SMap.get ([] : SMap α) k = none := rfl

theorem SMap.get_cons {α : Type} (e : String × α) (m : SMap α) (k : String) :
    SMap.get (e :: m) k = if e.1 = k then some e.2 else SMap.get m k := by
  simp only [SMap.get, List.find?_cons]
  by_cases h : e.1 = k
  · simp [h]
  · rw [show (e.1 == k) = false by simpa using h]
    simp [h]

theorem SMap.get_none {α : Type} (m : SMap α) (k : String) : SMap.get m k = none ↔ k ∉ m.keys := by
  induction m with
  | nil => simp [SMap.get_nil, SMap.keys]
  | cons e m ih =>
    rw [SMap.get_cons]
    by_cases h : e.1 = k
    · simp [h, SMap.keys]
    · simp only [h, if_false, ih, SMap.keys, List.map_cons, List.mem_cons, not_or]
      exact ⟨fun hh => ⟨fun e => h e.symm, hh⟩, fun hh => hh.2⟩

theorem SMap.get_mem {α : Type} {m : SMap α} {k : String} {a : α} (h : SMap.get m k = some a) : (k, a) ∈ m := by
  induction m with
  | nil => simp [SMap.get_nil] at h
  | cons e m ih =>
    rw [SMap.get_cons] at h
    by_cases hk : e.1 = k
    · simp only [hk, if_true, Option.some.injEq] at h
      rw [← h, ← hk]; simp
    · simp only [hk, if_false] at h
      exact List.mem_cons_of_mem _ (ih h)

theorem SMap.mem_get {α : Type} {m : SMap α} (hn : m.keys.Nodup) {k : String} {a : α} (h : (k, a) ∈ m) :
    SMap.get m k = some a := by
  induction m with
  | nil => simp at h
  | cons e m ih =>
    rw [SMap.get_cons]
    simp only [SMap.keys, List.map_cons, List.nodup_cons] at hn
    rcases List.mem_cons.mp h with h | h
    · subst h; simp
    · have hk : e.1 ≠ k := by
        intro he
        apply hn.1
        rw [he]
        exact List.mem_map_of_mem h
      simp only [hk, if_false]
      exact ih hn.2 h

theorem SMap.get_insertNew {α : Type} (m : SMap α) (k k' : String) (a : α) (h : m.get k = none) :
    (SMap.insertNew k a m).get k' = if k = k' then some a else m.get k' := by
  induction m with
  | nil => simp [SMap.insertNew, SMap.get_cons, SMap.get_nil]
  | cons e m ih =>
    simp only [SMap.insertNew]
    rw [SMap.get_cons] at h
    by_cases he : e.1 = k
    · simp [he] at h
    · simp only [he, if_false] at h
      split
      · rw [SMap.get_cons]
      · rw [SMap.get_cons, ih h, SMap.get_cons]
        by_cases hk : k = k'
        · subst hk; simp [he]
        · simp [hk]

theorem SMap.mem_insertNew {α : Type} (m : SMap α) (k : String) (a : α) (x : String × α) :
    x ∈ SMap.insertNew k a m ↔ x = (k, a) ∨ x ∈ m := by
  induction m with
  | nil => simp [SMap.insertNew]
  | cons e m ih =>
    simp only [SMap.insertNew]
    split
    · simp
    · simp only [List.mem_cons, ih]
      constructor
      · rintro (h | h | h) <;> simp [h]
      · rintro (h | h | h) <;> simp [h]

theorem SMap.insertNew_perm {α : Type} (m : SMap α) (k : String) (a : α) : (SMap.insertNew k a m).Perm ((k, a) :: m) := by
  induction m with
  | nil => exact List.Perm.refl _
  | cons e m ih =>
    simp only [SMap.insertNew]
    split
    · exact List.Perm.refl _
    · exact (List.Perm.cons e ih).trans (List.Perm.swap _ _ _)

theorem SMap.length_insertNew {α : Type} (m : SMap α) (k : String) (a : α) : (SMap.insertNew k a m).length = m.length + 1 := by
  have := (SMap.insertNew_perm m k a).length_eq
  simpa using this

theorem SMap.keys_insertNew {α : Type} (m : SMap α) (k : String) (a : α) : (SMap.insertNew k a m).keys.Perm (k :: m.keys) :=
  (SMap.insertNew_perm m k a).map Prod.fst

theorem SMap.nodup_insertNew {α : Type} (m : SMap α) (k : String) (a : α) (h : m.get k = none) (hn : m.keys.Nodup) :
    (SMap.insertNew k a m).keys.Nodup := by
  rw [(SMap.keys_insertNew m k a).nodup_iff, List.nodup_cons]
  exact ⟨(SMap.get_none m k).mp h, hn⟩

theorem SMap.get_set {α : Type} (m : SMap α) (k k' : String) (a : α) :
    (SMap.set k a m).get k' = if k = k' then some a else m.get k' := by
  unfold SMap.set
  cases h : m.get k with
  | none => simpa using SMap.get_insertNew m k k' a h
  | some b =>
    simp only [Option.isSome_some, if_true]
    by_cases hk : k = k'
    · subst hk
      simp only [if_true]
      induction m with
      | nil => simp [SMap.get_nil] at h
      | cons e m ih =>
        rw [List.map_cons, SMap.get_cons]
        rw [SMap.get_cons] at h
        by_cases he : e.1 = k
        · simp [he]
        · simp only [he, if_false] at h ⊢
          exact ih h
    · simp only [hk, if_false]
      clear h
      induction m with
      | nil => rfl
      | cons e m ih =>
        rw [List.map_cons, SMap.get_cons, SMap.get_cons, ih]
        by_cases he : e.1 = k
        · simp [he, hk]
        · simp [he]

theorem SMap.nodup_set {α : Type} (m : SMap α) (k : String) (a : α) (hn : m.keys.Nodup) : (SMap.set k a m).keys.Nodup := by
  unfold SMap.set
  cases h : m.get k with
  | none => simpa using SMap.nodup_insertNew m k a h hn
  | some b =>
    simp only [Option.isSome_some, if_true]
    have : SMap.keys (List.map (fun e : String × α => if e.1 = k then (k, a) else e) m) = m.keys := by
      simp only [SMap.keys, List.map_map]
      apply List.map_congr_left
      intro e _
      simp only [Function.comp]
      split
      · rename_i h; exact h.symm
      · rfl
    rw [this]
    exact hn

/-! ### Numbered prefixes -/

theorem numbered_inj (p : String) (i j : Nat) (h : numbered p i = numbered p j) : i = j := by
  have h1 : (numbered p i).toList = (numbered p j).toList := by rw [h]
  simp only [numbered, String.toList_append, String.toList_ofList] at h1
  have h2 := List.append_cancel_left h1
  rw [← (natDigits_spec i).2.2, h2, (natDigits_spec j).2.2]

theorem numbered_ne_empty (p : String) (i : Nat) : numbered p i ≠ "" := by
  intro h
  have h1 : (numbered p i).toList = [] := by rw [h]; rfl
  simp only [numbered, String.toList_append, String.toList_ofList, List.append_eq_nil_iff] at h1
  exact (natDigits_spec i).1 h1.2

theorem nodup_length_le {α : Type} [DecidableEq α] (l l' : List α) (hn : l.Nodup) (hs : ∀ a ∈ l, a ∈ l') : l.length ≤ l'.length := by
  induction l generalizing l' with
  | nil => simp
  | cons a l ih =>
    rw [List.nodup_cons] at hn
    have h1 := ih (l'.erase a) hn.2 (by
      intro b hb
      rw [List.mem_erase_of_ne]
      · exact hs b (List.mem_cons_of_mem _ hb)
      · intro hab; subst hab; exact hn.1 hb)
    have ha := hs a (by simp)
    have h2 := List.length_erase_of_mem ha
    have h3 : 0 < l'.length := List.length_pos_of_mem ha
    simp only [List.length_cons]
    omega

/-- Of `m.length + 1` numbers one is free. -/
theorem exists_free (m : SMap String) (p : String) (i : Nat) :
    ∃ j, i ≤ j ∧ j ≤ i + m.length ∧ m.get (numbered p j) = none := by
  by_cases h : ∃ j, i ≤ j ∧ j ≤ i + m.length ∧ m.get (numbered p j) = none
  · exact h
  · exfalso
    have hall : ∀ j, i ≤ j → j ≤ i + m.length → numbered p j ∈ m.keys := by
      intro j h1 h2
      by_cases hk : numbered p j ∈ m.keys
      · exact hk
      · exact absurd ⟨j, h1, h2, (SMap.get_none m _).mpr hk⟩ h
    have hsub : ((List.range (m.length + 1)).map fun j => numbered p (i + j)) ⊆ m.keys := by
      intro x hx
      obtain ⟨j, hj, rfl⟩ := List.mem_map.mp hx
      have := List.mem_range.mp hj
      exact hall (i + j) (by omega) (by omega)
    have hnd : ((List.range (m.length + 1)).map fun j => numbered p (i + j)).Nodup := by
      rw [List.nodup_iff_pairwise_ne]
      rw [List.pairwise_map]
      have := List.nodup_range (n := m.length + 1)
      rw [List.nodup_iff_pairwise_ne] at this
      apply this.imp
      intro a b hab he
      have := numbered_inj _ _ _ he
      omega
    have := nodup_length_le _ _ hnd hsub
    simp [SMap.keys] at this
    omega

theorem nsPut_true {m m' : SMap String} {p u : String} (h : nsPut m p u = (m', true)) :
    m.get p = none ∧ m' = SMap.insertNew p u m := by
  unfold nsPut at h
  split at h
  · simp at h
  · rename_i hh
    simp only [Prod.mk.injEq, and_true] at h
    exact ⟨by simpa using hh, h.symm⟩

theorem nsPut_false {m m' : SMap String} {p u : String} (h : nsPut m p u = (m', false)) :
    (m.get p).isSome ∧ m' = m := by
  unfold nsPut at h
  split at h
  · rename_i hh
    simp only [Prod.mk.injEq, and_true] at h
    exact ⟨hh, h.symm⟩
  · simp at h

theorem searchPrefix_spec (m : SMap String) (p u : String) (fuel i : Nat)
    (h : ∃ j, i ≤ j ∧ j < i + fuel ∧ m.get (numbered p j) = none) :
    ∃ j, i ≤ j ∧ j < i + fuel ∧ m.get (numbered p j) = none ∧ (∀ k, i ≤ k → k < j → (m.get (numbered p k)).isSome) ∧
      searchPrefix m p u fuel i = .ok (SMap.insertNew (numbered p j) u m, numbered p j) := by
  induction fuel generalizing i with
  | zero => obtain ⟨j, h1, h2, -⟩ := h; omega
  | succ fuel ih =>
    unfold searchPrefix
    cases hp : nsPut m (numbered p i) u with | mk m' b =>
    cases b with
    | true =>
      obtain ⟨h1, rfl⟩ := nsPut_true hp
      exact ⟨i, Nat.le_refl _, by omega, h1, fun k h1 h2 => by omega, rfl⟩
    | false =>
      obtain ⟨h1, -⟩ := nsPut_false hp
      obtain ⟨j, h2, h3, h4⟩ := h
      have hij : i ≠ j := by
        intro he
        subst he
        rw [h4] at h1
        simp at h1
      obtain ⟨j', g1, g2, g3, g4, g5⟩ := ih (i + 1) ⟨j, by omega, by omega, h4⟩
      refine ⟨j', by omega, by omega, g3, ?_, g5⟩
      intro k hk1 hk2
      by_cases hki : k = i
      · subst hki; exact h1
      · exact g4 k (by omega) hk2

/-- The prefix a required mapping gets is free, and is the requested one if that is free and usable. -/
theorem assignRequired_spec (m : SMap String) (u : String) (e : NsEntry) :
    ∃ p, assignRequired m u e = .ok (SMap.insertNew p u m, p) ∧ m.get p = none ∧ (e.needsPrefix = true → p ≠ "") ∧
      (p = e.requested ∨ ∃ j, j ≤ m.length + 2 ∧ p = numbered (if e.requested = "" then "ns" else e.requested) j ∧
        ((e.needsPrefix = true ∧ e.requested = "") ∨ (m.get e.requested).isSome)) := by
  have hsearch : ∃ p j, (if e.requested = "" then searchPrefix m "ns" u (m.length + 1) 1 else searchPrefix m e.requested u (m.length + 1) 2) =
      .ok (SMap.insertNew p u m, p) ∧ m.get p = none ∧ j ≤ m.length + 2 ∧
      p = numbered (if e.requested = "" then "ns" else e.requested) j := by
    by_cases hr : e.requested = ""
    · simp only [hr, if_true]
      obtain ⟨j, h1, h2, h3⟩ := exists_free m "ns" 1
      obtain ⟨j, g1, g2, g3, -, g5⟩ := searchPrefix_spec m "ns" u (m.length + 1) 1 ⟨j, h1, by omega, h3⟩
      exact ⟨_, j, g5, g3, by omega, rfl⟩
    · simp only [hr, if_false]
      obtain ⟨j, h1, h2, h3⟩ := exists_free m e.requested 2
      obtain ⟨j, g1, g2, g3, -, g5⟩ := searchPrefix_spec m e.requested u (m.length + 1) 2 ⟨j, h1, by omega, h3⟩
      exact ⟨_, j, g5, g3, by omega, rfl⟩
  obtain ⟨p, j, h1, h2, h3, h4⟩ := hsearch
  unfold assignRequired
  by_cases hc : (!(e.needsPrefix && e.requested == "")) = true
  · simp only [hc, if_true]
    cases hp : nsPut m e.requested u with | mk m' b =>
    cases b with
    | true =>
      obtain ⟨g1, rfl⟩ := nsPut_true hp
      refine ⟨e.requested, rfl, g1, ?_, .inl rfl⟩
      intro hn he
      simp [hn, he] at hc
    | false =>
      obtain ⟨g1, -⟩ := nsPut_false hp
      exact ⟨p, h1, h2, fun _ => h4 ▸ numbered_ne_empty _ _, .inr ⟨j, h3, h4, .inr g1⟩⟩
  · simp only [hc]
    have hc' : e.needsPrefix = true ∧ e.requested = "" := by simpa using hc
    exact ⟨p, h1, h2, fun _ => h4 ▸ numbered_ne_empty _ _, .inr ⟨j, h3, h4, .inl hc'⟩⟩


/-! ### The two passes -/

/-- An entry without its assigned prefix. -/
def unassigned (x : String × NsEntry) : String × NsEntry := (x.1, { x.2 with assigned := none })

theorem unassigned_eq {x : String × NsEntry} (h : x.2.assigned = none) : unassigned x = x := by
  obtain ⟨u, r, a, q, n⟩ := x
  simp only at h
  subst h
  rfl

theorem keys_unassigned (l : NsBuilder) : SMap.keys (l.map unassigned) = SMap.keys l := by
  simp only [SMap.keys, List.map_map]
  rfl

theorem passRequired_spec (m : SMap String) (l : NsBuilder) (hm : m.keys.Nodup) (hl : ∀ x ∈ l, x.2.assigned = none) :
    ∃ m' l', passRequired m l = .ok (m', l') ∧ l'.map unassigned = l ∧ m'.keys.Nodup ∧
      (∀ p u, m'.get p = some u ↔ m.get p = some u ∨ ∃ e, (u, e) ∈ l' ∧ e.assigned = some p) ∧
      (∀ x ∈ l', if x.2.required then ∃ p, x.2.assigned = some p ∧ (x.2.needsPrefix = true → p ≠ "") ∧ m.get p = none
        else x.2.assigned = none) := by
  induction l generalizing m with
  | nil => exact ⟨m, [], rfl, rfl, hm, by simp, by simp⟩
  | cons x l ih =>
    obtain ⟨u, e⟩ := x
    have he : e.assigned = none := hl (u, e) (by simp)
    have hl' : ∀ x ∈ l, x.2.assigned = none := fun x hx => hl x (List.mem_cons_of_mem _ hx)
    unfold passRequired
    by_cases hr : e.required = true
    · simp only [hr, if_true]
      obtain ⟨p, h1, h2, h3, -⟩ := assignRequired_spec m u e
      obtain ⟨m', l', g1, g2, g3, g4, g5⟩ := ih (SMap.insertNew p u m) (SMap.nodup_insertNew m p u h2 hm) hl'
      rw [h1]
      simp only [g1]
      refine ⟨m', _, rfl, ?_, g3, ?_, ?_⟩
      · simp only [List.map_cons, g2, List.cons.injEq, and_true]
        cases e
        simp only at he hr
        subst he hr
        rfl
      · intro q v
        rw [g4, SMap.get_insertNew _ _ _ _ h2]
        simp only [List.mem_cons]
        constructor
        · rintro (h | ⟨e', h, h'⟩)
          · by_cases hpq : p = q
            · simp only [hpq, if_true, Option.some.injEq] at h
              subst h
              exact .inr ⟨_, .inl rfl, by simp [hpq]⟩
            · simp only [hpq, if_false] at h
              exact .inl h
          · exact .inr ⟨e', .inr h, h'⟩
        · rintro (h | ⟨e', h | h, h'⟩)
          · left
            have : p ≠ q := by
              intro hpq; subst hpq; rw [h2] at h; simp at h
            simp only [this, if_false]
            exact h
          · simp only [Prod.mk.injEq] at h
            obtain ⟨rfl, rfl⟩ := h
            simp only [Option.some.injEq] at h'
            left
            simp [h']
          · exact .inr ⟨e', h, h'⟩
      · intro x hx
        rcases List.mem_cons.mp hx with rfl | hx
        · simp only [hr, if_true]
          exact ⟨p, rfl, h3, h2⟩
        · have := g5 x hx
          split
          · rename_i hxr
            simp only [hxr, if_true] at this
            obtain ⟨p', k1, k2, k3⟩ := this
            refine ⟨p', k1, k2, ?_⟩
            rw [SMap.get_insertNew _ _ _ _ h2] at k3
            split at k3
            · simp at k3
            · exact k3
          · rename_i hxr
            simpa [hxr] using this
    · obtain ⟨m', l', g1, g2, g3, g4, g5⟩ := ih m hm hl'
      simp only [hr, g1]
      refine ⟨m', _, rfl, ?_, g3, ?_, ?_⟩
      · simp only [List.map_cons, g2, List.cons.injEq, and_true]
        exact unassigned_eq (x := (u, e)) he
      · intro q v
        rw [g4]
        simp only [List.mem_cons]
        constructor
        · rintro (h | ⟨e', h, h'⟩)
          · exact .inl h
          · exact .inr ⟨e', .inr h, h'⟩
        · rintro (h | ⟨e', h | h, h'⟩)
          · exact .inl h
          · simp only [Prod.mk.injEq] at h
            obtain ⟨rfl, rfl⟩ := h
            rw [he] at h'
            simp at h'
          · exact .inr ⟨e', h, h'⟩
      · intro x hx
        rcases List.mem_cons.mp hx with rfl | hx
        · simp only [hr]
          exact he
        · exact g5 x hx

theorem passInherited_spec (m : SMap String) (l : NsBuilder) (hm : m.keys.Nodup)
    (hl : ∀ x ∈ l, x.2.required = false → x.2.assigned = none) :
    ∃ m' l', passInherited m l = (m', l') ∧ l'.map unassigned = l.map unassigned ∧ m'.keys.Nodup ∧
      (∀ p u, m'.get p = some u ↔ m.get p = some u ∨ ∃ e, (u, e) ∈ l' ∧ e.required = false ∧ e.assigned = some p) ∧
      (∀ x ∈ l', x.2.required = true → x ∈ l) ∧ (∀ x ∈ l, x.2.required = true → x ∈ l') := by
  induction l generalizing m with
  | nil => exact ⟨m, [], rfl, rfl, hm, by simp, by simp, by simp⟩
  | cons x l ih =>
    obtain ⟨u, e⟩ := x
    have hl' : ∀ x ∈ l, x.2.required = false → x.2.assigned = none := fun x hx => hl x (List.mem_cons_of_mem _ hx)
    unfold passInherited
    by_cases hr : e.required = true
    · obtain ⟨m', l', g1, g2, g3, g4, g5, g6⟩ := ih m hm hl'
      simp only [hr, if_true, g1]
      refine ⟨m', _, rfl, by simp [g2], g3, ?_, ?_, ?_⟩
      · intro q v
        rw [g4]
        simp only [List.mem_cons]
        constructor
        · rintro (h | ⟨e', h, h'⟩)
          · exact .inl h
          · exact .inr ⟨e', .inr h, h'⟩
        · rintro (h | ⟨e', h | h, h'⟩)
          · exact .inl h
          · simp only [Prod.mk.injEq] at h
            obtain ⟨rfl, rfl⟩ := h
            rw [hr] at h'
            simp at h'
          · exact .inr ⟨e', h, h'⟩
      · intro x hx hxr
        rcases List.mem_cons.mp hx with rfl | hx
        · simp
        · exact List.mem_cons_of_mem _ (g5 x hx hxr)
      · intro x hx hxr
        rcases List.mem_cons.mp hx with rfl | hx
        · simp
        · exact List.mem_cons_of_mem _ (g6 x hx hxr)
    · have hr' : e.required = false := by simpa using hr
      have he : e.assigned = none := hl (u, e) (by simp) hr'
      simp only [hr]
      cases hp : nsPut m e.requested u with | mk m1 b =>
      cases b with
      | true =>
        obtain ⟨h2, rfl⟩ := nsPut_true hp
        obtain ⟨m', l', g1, g2, g3, g4, g5, g6⟩ := ih _ (SMap.nodup_insertNew m e.requested u h2 hm) hl'
        simp only [g1]
        refine ⟨m', _, rfl, by simp [g2, unassigned, hr'], g3, ?_, ?_, ?_⟩
        · intro q v
          rw [g4, SMap.get_insertNew _ _ _ _ h2]
          simp only [List.mem_cons]
          constructor
          · rintro (h | ⟨e', h, h'⟩)
            · by_cases hpq : e.requested = q
              · simp only [hpq, if_true, Option.some.injEq] at h
                subst h
                exact .inr ⟨_, .inl rfl, by simp [hpq, hr']⟩
              · simp only [hpq, if_false] at h
                exact .inl h
            · exact .inr ⟨e', .inr h, h'⟩
          · rintro (h | ⟨e', h | h, h'⟩)
            · left
              have : e.requested ≠ q := by
                intro hpq; subst hpq; rw [h2] at h; simp at h
              simp only [this, if_false]
              exact h
            · simp only [Prod.mk.injEq] at h
              obtain ⟨rfl, rfl⟩ := h
              simp only [Option.some.injEq] at h'
              left
              simp [h'.2]
            · exact .inr ⟨e', h, h'⟩
        · intro x hx hxr
          rcases List.mem_cons.mp hx with rfl | hx
          · simp [hr'] at hxr
          · exact List.mem_cons_of_mem _ (g5 x hx hxr)
        · intro x hx hxr
          rcases List.mem_cons.mp hx with rfl | hx
          · simp [hr'] at hxr
          · exact List.mem_cons_of_mem _ (g6 x hx hxr)
      | false =>
        obtain ⟨-, rfl⟩ := nsPut_false hp
        obtain ⟨m', l', g1, g2, g3, g4, g5, g6⟩ := ih m1 hm hl'
        simp only [g1]
        refine ⟨m', _, rfl, by simp [g2], g3, ?_, ?_, ?_⟩
        · intro q v
          rw [g4]
          simp only [List.mem_cons]
          constructor
          · rintro (h | ⟨e', h, h'⟩)
            · exact .inl h
            · exact .inr ⟨e', .inr h, h'⟩
          · rintro (h | ⟨e', h | h, h'⟩)
            · exact .inl h
            · simp only [Prod.mk.injEq] at h
              obtain ⟨rfl, rfl⟩ := h
              rw [he] at h'
              simp at h'
            · exact .inr ⟨e', h, h'⟩
        · intro x hx hxr
          rcases List.mem_cons.mp hx with rfl | hx
          · simp [hr'] at hxr
          · exact List.mem_cons_of_mem _ (g5 x hx hxr)
        · intro x hx hxr
          rcases List.mem_cons.mp hx with rfl | hx
          · simp [hr'] at hxr
          · exact List.mem_cons_of_mem _ (g6 x hx hxr)

/-- A builder as it occurs: no URL twice, no prefix assigned yet (`ser/mod.rs:261`). -/
structure NsBuilder.Ok (b : NsBuilder) : Prop where
  nodup : SMap.keys b |>.Nodup
  fresh : ∀ x ∈ b, x.2.assigned = none

/-- What holds of finished mappings. -/
structure Namespaces.Ok (n : Namespaces) : Prop where
  urls : n.byUrl.keys.Nodup
  prefixes : n.byPrefix.keys.Nodup
  iff : ∀ p u, n.byPrefix.get p = some u ↔ ∃ e, n.byUrl.get u = some e ∧ e.assigned = some p
  required : ∀ u e, n.byUrl.get u = some e → e.required = true → ∃ p, e.assigned = some p
  needs : ∀ u e, n.byUrl.get u = some e → e.required = true → e.needsPrefix = true → e.assigned ≠ some ""

theorem finalize_spec (b : NsBuilder) (hb : b.Ok) :
    ∃ n, b.finalize = .ok n ∧ n.Ok ∧ n.byUrl.map unassigned = b := by
  obtain ⟨m1, l1, h1, h2, h3, h4, h5⟩ := passRequired_spec [] b (by simp [SMap.keys]) hb.fresh
  have hr : ∀ x ∈ l1, x.2.required = false → x.2.assigned = none := by
    intro x hx hxr
    have := h5 x hx
    simpa [hxr] using this
  obtain ⟨m2, l2, g1, g2, g3, g4, g5, g6⟩ := passInherited_spec m1 l1 h3 hr
  refine ⟨{ byUrl := l2, byPrefix := m2 }, ?_, ?_, ?_⟩
  · unfold NsBuilder.finalize
    simp only [h1, g1]
  · have hk1 : SMap.keys l1 = SMap.keys b := by rw [← h2, keys_unassigned]
    have hk2 : SMap.keys l2 = SMap.keys l1 := by rw [← keys_unassigned l2, g2, keys_unassigned]
    have hnd : (SMap.keys l2).Nodup := by rw [hk2, hk1]; exact hb.nodup
    have hnd1 : (SMap.keys l1).Nodup := by rw [hk1]; exact hb.nodup
    refine ⟨hnd, g3, ?_, ?_, ?_⟩
    · intro p u
      rw [g4, h4]
      simp only [SMap.get_nil, reduceCtorEq, false_or]
      constructor
      · rintro (⟨e, k1, k2⟩ | ⟨e, k1, k2, k3⟩)
        · have : e.required = true := by
            cases hq : e.required with
            | true => rfl
            | false => rw [hr (u, e) k1 hq] at k2; simp at k2
          exact ⟨e, SMap.mem_get hnd (g6 (u, e) k1 this), k2⟩
        · exact ⟨e, SMap.mem_get hnd k1, k3⟩
      · rintro ⟨e, k1, k2⟩
        have := SMap.get_mem k1
        cases hq : e.required with
        | true => exact .inl ⟨e, g5 (u, e) this hq, k2⟩
        | false => exact .inr ⟨e, this, hq, k2⟩
    · intro u e k1 k2
      have := h5 (u, e) (g5 (u, e) (SMap.get_mem k1) k2)
      simp only [k2, if_true] at this
      obtain ⟨p, q, -⟩ := this
      exact ⟨p, q⟩
    · intro u e k1 k2 k3 k4
      have := h5 (u, e) (g5 (u, e) (SMap.get_mem k1) k2)
      simp only [k2, if_true] at this
      obtain ⟨p, q, q2, -⟩ := this
      rw [k4] at q
      simp only [Option.some.injEq] at q
      exact q2 k3 q.symm
  · rw [g2, h2]

/-! ### Builders stay well-formed -/

theorem NsBuilder.Ok.nil : NsBuilder.Ok [] := ⟨by simp [SMap.keys], by simp⟩

theorem SMap.mem_set {α : Type} {m : SMap α} {k : String} {a : α} {x : String × α} (h : x ∈ SMap.set k a m) :
    x = (k, a) ∨ x ∈ m := by
  unfold SMap.set at h
  split at h
  · obtain ⟨e, he, rfl⟩ := List.mem_map.mp h
    split
    · exact .inl rfl
    · exact .inr he
  · exact (SMap.mem_insertNew m k a x).mp h

theorem NsBuilder.Ok.set {b : NsBuilder} (hb : b.Ok) (u : String) (e : NsEntry) (he : e.assigned = none) :
    NsBuilder.Ok (SMap.set u e b) := by
  refine ⟨SMap.nodup_set b u e hb.nodup, ?_⟩
  intro x hx
  rcases SMap.mem_set hx with rfl | hx
  · exact he
  · exact hb.fresh x hx

theorem NsBuilder.Ok.insert {b b' : NsBuilder} (hb : b.Ok) {dbg : Bool} {p u : String} (h : b.insert dbg p u = .ok b') : b'.Ok := by
  unfold NsBuilder.insert at h
  split at h
  · simp at h
  · split at h
    · simp only [Except.ok.injEq] at h
      subst h
      exact hb.set _ _ rfl
    · rename_i e he
      simp only [Except.ok.injEq] at h
      subst h
      exact hb.set _ _ (hb.fresh _ (SMap.get_mem he))

theorem NsBuilder.Ok.attribute {b : NsBuilder} (hb : b.Ok) (u : String) : (b.attribute u).Ok := by
  unfold NsBuilder.attribute
  split
  · exact hb
  · rename_i e he
    exact hb.set _ _ (hb.fresh _ (SMap.get_mem he))

theorem childLoop_ok (ns : String) (m : SMap String) (found : Bool) (c : NsBuilder) (hc : c.Ok) : (childLoop ns m found c).Ok := by
  induction m generalizing found c with
  | nil => exact hc
  | cons x m ih => exact ih _ _ (hc.set _ _ rfl)

theorem Namespaces.child_ok (n : Namespaces) (ns : String) : (n.child ns).Ok := childLoop_ok _ _ _ _ NsBuilder.Ok.nil

end SX
