import Verif.Spec.Prefixes
import Verif.Proof.Namespaces
import Verif.Proof.Writer

/-
Sorted maps, and the exact choice of prefixes.
-/
namespace SX
open Spec

/-! ### Sorted maps -/

theorem SMap.keys_insertNew_mem {α : Type} (m : SMap α) (k : String) (a : α) (x : String) :
    x ∈ (SMap.insertNew k a m).keys ↔ x = k ∨ x ∈ m.keys := by
  rw [(SMap.keys_insertNew m k a).mem_iff, List.mem_cons]

theorem SMap.ascending_insertNew {α : Type} (m : SMap α) (k : String) (a : α) (h : m.get k = none) (hs : Ascending m.keys) :
    Ascending (SMap.insertNew k a m).keys := by
  induction m with
  | nil => simp [SMap.insertNew, SMap.keys, Ascending]
  | cons e m ih =>
    rw [SMap.get_cons] at h
    have hek : e.1 ≠ k := by
      intro he
      simp [he] at h
    rw [if_neg hek] at h
    simp only [SMap.keys, Ascending, List.map_cons, List.pairwise_cons] at hs
    simp only [SMap.insertNew]
    split
    · rename_i hlt
      have hlt : compare k e.1 = .lt := by simpa using hlt
      simp only [SMap.keys, Ascending, List.map_cons, List.pairwise_cons]
      refine ⟨?_, hs⟩
      intro x hx
      rcases List.mem_cons.mp hx with rfl | hx
      · exact hlt
      · exact Std.TransCmp.lt_trans hlt (hs.1 x hx)
    · rename_i hlt
      have hgt : compare e.1 k = .lt := by
        have hne : compare k e.1 ≠ .lt := by simpa using hlt
        have heq : compare k e.1 ≠ .eq := fun hh => hek (Std.LawfulEqCmp.eq_of_compare hh).symm
        have hg : compare k e.1 = .gt := by
          cases hc : compare k e.1 <;> simp_all
        rw [Std.OrientedCmp.eq_swap (cmp := compare), hg]
        rfl
      have ih' := ih h hs.2
      simp only [SMap.keys, Ascending, List.map_cons, List.pairwise_cons] at ih' ⊢
      refine ⟨?_, ih'⟩
      intro x hx
      rcases (SMap.keys_insertNew_mem m k a x).mp hx with rfl | hx
      · exact hgt
      · exact hs.1 x hx

theorem SMap.keys_set {α : Type} (m : SMap α) (k : String) (a : α) (h : (m.get k).isSome = true) : (SMap.set k a m).keys = m.keys := by
  unfold SMap.set
  rw [if_pos h]
  simp only [SMap.keys, List.map_map]
  apply List.map_congr_left
  intro e _
  simp only [Function.comp]
  split
  · rename_i h; exact h.symm
  · rfl

theorem SMap.ascending_set {α : Type} (m : SMap α) (k : String) (a : α) (hs : Ascending m.keys) : Ascending (SMap.set k a m).keys := by
  by_cases h : (m.get k).isSome = true
  · rw [SMap.keys_set m k a h]; exact hs
  · unfold SMap.set
    rw [if_neg h]
    exact SMap.ascending_insertNew m k a (by simpa using h) hs

theorem ascending_nodup {l : List String} (h : Ascending l) : l.Nodup := by
  refine List.Pairwise.imp ?_ h
  rintro a b hab rfl
  rw [Std.ReflCmp.compare_self (cmp := compare)] at hab
  cases hab

theorem SMap.ext {α : Type} {m m' : SMap α} (hm : Ascending m.keys) (hm' : Ascending m'.keys) (h : ∀ k, m.get k = m'.get k) : m = m' := by
  induction m generalizing m' with
  | nil =>
    cases m' with
    | nil => rfl
    | cons e m' =>
      have := h e.1
      rw [SMap.get_cons] at this
      simp [SMap.get_nil] at this
  | cons e m ih =>
    cases m' with
    | nil =>
      have := h e.1
      rw [SMap.get_cons] at this
      simp [SMap.get_nil] at this
    | cons e' m' =>
      simp only [SMap.keys, Ascending, List.map_cons, List.pairwise_cons] at hm hm'
      have notin : ∀ {x : String} {n : SMap α}, (∀ y ∈ n.map Prod.fst, compare x y = .lt) → ∀ y, compare y x = .lt ∨ y = x → n.get y = none := by
        intro x n hn y hy
        rw [SMap.get_none]
        intro hmem
        have hlt := hn y hmem
        rcases hy with hy | rfl
        · have := Std.TransCmp.lt_trans hlt hy
          rw [Std.ReflCmp.compare_self (cmp := compare)] at this
          cases this
        · rw [Std.ReflCmp.compare_self (cmp := compare)] at hlt
          cases hlt
      have hkey : e.1 = e'.1 := by
        refine Classical.byContradiction fun hne => ?_
        cases hc : compare e.1 e'.1 with
        | eq => exact hne (Std.LawfulEqCmp.eq_of_compare hc)
        | lt =>
          have := h e.1
          rw [SMap.get_cons, SMap.get_cons, if_pos rfl, if_neg (fun hh => hne hh.symm), notin hm'.1 e.1 (.inl hc)] at this
          cases this
        | gt =>
          have hc' : compare e'.1 e.1 = .lt := by rw [Std.OrientedCmp.eq_swap (cmp := compare), hc]; rfl
          have := h e'.1
          rw [SMap.get_cons, SMap.get_cons, if_pos rfl, if_neg hne, notin hm.1 e'.1 (.inl hc')] at this
          cases this
      have hval : e.2 = e'.2 := by
        have := h e.1
        rw [SMap.get_cons, SMap.get_cons, if_pos rfl, if_pos hkey.symm] at this
        exact Option.some.inj this
      rw [show e = e' from Prod.ext hkey hval]
      congr 1
      apply ih hm.2 hm'.2
      intro k
      by_cases hk : e'.1 = k
      · subst hk
        rw [notin hm'.1 e'.1 (.inr rfl), notin hm.1 e'.1 (.inr hkey.symm)]
      · have := h k
        rw [SMap.get_cons, SMap.get_cons, if_neg hk, if_neg (hkey ▸ hk)] at this
        exact this

/-! ### Numbers -/

theorem natDigits_toString (n : Nat) : String.ofList (natDigits n) = toString n := by
  show String.ofList (natDigits n) = String.ofList (Nat.toDigits 10 n)
  congr 1
  induction n using Nat.strongRecOn with
  | ind n ih =>
    unfold natDigits
    have dig : ∀ d, d < 10 → Char.ofNat (48 + d) = Nat.digitChar d := by decide
    by_cases h : n < 10
    · rw [if_pos h, Nat.toDigits_of_lt_base h, dig n h]
    · rw [if_neg h, Nat.toDigits_of_base_le (by decide) (by omega), ih (n / 10) (by omega), dig _ (Nat.mod_lt _ (by decide))]

theorem numbered_toString (p : String) (n : Nat) : numbered p n = p ++ toString n := by
  rw [numbered, natDigits_toString]

/-! ### The choice -/

theorem Chosen.congr {used used' : List String} {r : Request} {p : String} (h : ∀ x, x ∈ used ↔ x ∈ used') (hc : Chosen used r p) :
    Chosen used' r p := by
  have hu : Usable used r ↔ Usable used' r := by simp only [Usable, h]
  cases hc with
  | asked h1 => exact .asked (hu.mp h1)
  | numbered h1 hp n hn free least =>
    exact .numbered (fun h2 => h1 (hu.mpr h2)) hp n hn (fun h2 => free ((h _).mpr h2)) fun k h2 h3 => (h _).mp (least k h2 h3)
  | invented h1 hp n hn free least =>
    exact .invented (fun h2 => h1 (hu.mpr h2)) hp n hn (fun h2 => free ((h _).mpr h2)) fun k h2 h3 => (h _).mp (least k h2 h3)

theorem Assigned.congr {used used' : List String} {l : List Request} {m : List (String × String)} (h : ∀ x, x ∈ used ↔ x ∈ used')
    (ha : Assigned used l m) : Assigned used' l m := by
  induction ha generalizing used' with
  | nil => exact .nil
  | cons hc _ ih => exact .cons (Chosen.congr h hc) (ih fun x => by simp [h x])

theorem Chosen.unique {used : List String} {r : Request} {p q : String} (hp : Chosen used r p) (hq : Chosen used r q) : p = q := by
  cases hp with
  | asked h1 =>
    cases hq with
    | asked _ => rfl
    | numbered h2 => exact absurd h1 h2
    | invented h2 => exact absurd h1 h2
  | numbered h1 hne n hn free least =>
    cases hq with
    | asked h2 => exact absurd h2 h1
    | numbered h2 _ n' hn' free' least' =>
      rcases Nat.lt_trichotomy n n' with hlt | rfl | hlt
      · exact absurd (least' n hn hlt) free
      · rfl
      · exact absurd (least n' hn' hlt) free'
    | invented h2 he => exact absurd he hne
  | invented h1 hne n hn free least =>
    cases hq with
    | asked h2 => exact absurd h2 h1
    | numbered h2 he => exact absurd hne he
    | invented h2 _ n' hn' free' least' =>
      rcases Nat.lt_trichotomy n n' with hlt | rfl | hlt
      · exact absurd (least' n hn hlt) free
      · rfl
      · exact absurd (least n' hn' hlt) free'

theorem Assigned.unique {used : List String} {l : List Request} {m m' : List (String × String)} (h : Assigned used l m)
    (h' : Assigned used l m') : m = m' := by
  induction h generalizing m' with
  | nil => cases h'; rfl
  | cons hc _ ih =>
    cases h' with
    | cons hc' t' =>
      cases Chosen.unique hc hc'
      rw [ih t']

/-- The request of an entry. -/
def requestFor (x : String × NsEntry) : Request := { url := x.1, pfx := x.2.requested, needs := x.2.needsPrefix }

theorem isSome_mem {m : SMap String} {k : String} : (m.get k).isSome = true ↔ k ∈ m.keys := by
  have := SMap.get_none m k
  cases h : m.get k with
  | none => simp [this.mp h]
  | some v =>
    rw [h] at this
    simp only [reduceCtorEq, false_iff, Classical.not_not] at this
    simp [this]

theorem assignRequired_chosen (m : SMap String) (u : String) (e : NsEntry) :
    ∃ p, assignRequired m u e = .ok (SMap.insertNew p u m, p) ∧ m.get p = none ∧ Chosen m.keys (requestFor (u, e)) p := by
  have hsearch : ¬ Usable m.keys (requestFor (u, e)) → ∃ p,
      (if e.requested = "" then searchPrefix m "ns" u (m.length + 1) 1 else searchPrefix m e.requested u (m.length + 1) 2) =
      .ok (SMap.insertNew p u m, p) ∧ m.get p = none ∧ Chosen m.keys (requestFor (u, e)) p := by
    intro hu
    by_cases hr : e.requested = ""
    · simp only [hr, if_true]
      obtain ⟨j, h1, h2, h3⟩ := exists_free m "ns" 1
      obtain ⟨j, g1, g2, g3, g4, g5⟩ := searchPrefix_spec m "ns" u (m.length + 1) 1 ⟨j, h1, by omega, h3⟩
      refine ⟨_, g5, g3, ?_⟩
      rw [numbered_toString]
      refine .invented hu hr j g1 ?_ ?_
      · rw [← numbered_toString]; exact (SMap.get_none _ _).mp g3
      · intro k hk1 hk2
        rw [← numbered_toString]; exact isSome_mem.mp (g4 k hk1 hk2)
    · simp only [hr, if_false]
      obtain ⟨j, h1, h2, h3⟩ := exists_free m e.requested 2
      obtain ⟨j, g1, g2, g3, g4, g5⟩ := searchPrefix_spec m e.requested u (m.length + 1) 2 ⟨j, h1, by omega, h3⟩
      refine ⟨_, g5, g3, ?_⟩
      rw [numbered_toString]
      refine .numbered (r := requestFor (u, e)) hu hr j g1 ?_ ?_
      · simp only [requestFor]; rw [← numbered_toString]; exact (SMap.get_none _ _).mp g3
      · intro k hk1 hk2
        simp only [requestFor]
        rw [← numbered_toString]; exact isSome_mem.mp (g4 k hk1 hk2)
  unfold assignRequired
  by_cases hc : (!(e.needsPrefix && e.requested == "")) = true
  · simp only [hc, if_true]
    cases hp : nsPut m e.requested u with | mk m' b =>
    cases b with
    | true =>
      obtain ⟨g1, rfl⟩ := nsPut_true hp
      refine ⟨e.requested, rfl, g1, .asked (r := requestFor (u, e)) ⟨(SMap.get_none _ _).mp g1, ?_⟩⟩
      rintro ⟨h1, h2⟩
      simp only [requestFor] at h1 h2
      simp [h1, h2] at hc
    | false =>
      obtain ⟨g1, -⟩ := nsPut_false hp
      exact hsearch fun hu => hu.1 (isSome_mem.mp g1)
  · simp only [hc]
    have hc' : e.needsPrefix = true ∧ e.requested = "" := by simpa using hc
    exact hsearch fun hu => hu.2 hc'

/-- The requests of the required entries. -/
def requests (l : NsBuilder) : List Request := (l.filter fun x => x.2.required).map requestFor

theorem passRequired_assigned (m : SMap String) (l : NsBuilder) (hs : Ascending m.keys) {m' : SMap String} {l' : NsBuilder}
    (h : passRequired m l = .ok (m', l')) : ∃ asg, Assigned m.keys (requests l) asg ∧ Ascending m'.keys ∧
      (∀ p u, m'.get p = some u ↔ m.get p = some u ∨ (u, p) ∈ asg) := by
  induction l generalizing m m' l' with
  | nil =>
    simp only [passRequired, Except.ok.injEq, Prod.mk.injEq] at h
    obtain ⟨rfl, rfl⟩ := h
    exact ⟨[], .nil, hs, by simp⟩
  | cons x l ih =>
    obtain ⟨u, e⟩ := x
    unfold passRequired at h
    by_cases hr : e.required = true
    · simp only [hr, if_true] at h
      obtain ⟨p, h1, h2, h3⟩ := assignRequired_chosen m u e
      rw [h1] at h
      dsimp only at h
      cases hp : passRequired (SMap.insertNew p u m) l with
      | error f => rw [hp] at h; cases h
      | ok r =>
        obtain ⟨m1, l1⟩ := r
        rw [hp] at h
        simp only [Except.ok.injEq, Prod.mk.injEq] at h
        obtain ⟨rfl, rfl⟩ := h
        obtain ⟨asg, g1, g2, g3⟩ := ih _ (SMap.ascending_insertNew m p u h2 hs) hp
        refine ⟨(u, p) :: asg, ?_, g2, ?_⟩
        · simp only [requests, List.filter_cons, hr, if_true, List.map_cons]
          refine .cons (r := requestFor (u, e)) h3 (Assigned.congr (fun x => ?_) g1)
          rw [SMap.keys_insertNew_mem, List.mem_cons]
        · intro q v
          rw [g3, SMap.get_insertNew _ _ _ _ h2, List.mem_cons, Prod.mk.injEq]
          by_cases hpq : p = q
          · subst hpq
            simp only [if_true, Option.some.injEq, h2, reduceCtorEq, false_or, and_true]
            constructor
            · rintro (h | h)
              · exact .inl h.symm
              · exact .inr h
            · rintro (h | h)
              · exact .inl h.symm
              · exact .inr h
          · have : ¬ q = p := fun h => hpq h.symm
            simp [hpq, this]
    · simp only [hr] at h
      cases hp : passRequired m l with
      | error f => rw [hp] at h; cases h
      | ok r =>
        obtain ⟨m1, l1⟩ := r
        rw [hp] at h
        simp only [Except.ok.injEq, Prod.mk.injEq, Bool.false_eq_true, if_false] at h
        obtain ⟨rfl, rfl⟩ := h
        obtain ⟨asg, g1, g2, g3⟩ := ih _ hs hp
        refine ⟨asg, ?_, g2, g3⟩
        simpa [requests, List.filter_cons, hr] using g1

theorem passInherited_exact (m : SMap String) (l : NsBuilder) (hs : Ascending m.keys)
    (hd : (l.filter fun x => !x.2.required).Pairwise fun x y => x.2.requested ≠ y.2.requested) {m' : SMap String} {l' : NsBuilder}
    (h : passInherited m l = (m', l')) : Ascending m'.keys ∧
      ∀ p u, m'.get p = some u ↔ m.get p = some u ∨ (m.get p = none ∧ ∃ e, (u, e) ∈ l ∧ e.required = false ∧ e.requested = p) := by
  induction l generalizing m m' l' with
  | nil =>
    simp only [passInherited, Prod.mk.injEq] at h
    obtain ⟨rfl, rfl⟩ := h
    exact ⟨hs, by simp⟩
  | cons x l ih =>
    obtain ⟨u, e⟩ := x
    unfold passInherited at h
    by_cases hr : e.required = true
    · simp only [hr, if_true, Prod.mk.injEq] at h
      have hd' : (l.filter fun x => !x.2.required).Pairwise fun x y => x.2.requested ≠ y.2.requested := by
        simpa [List.filter_cons, hr] using hd
      obtain ⟨g1, g2⟩ := ih m hs hd' (Prod.ext rfl rfl : passInherited m l = ((passInherited m l).1, (passInherited m l).2))
      rw [h.1] at g1 g2
      refine ⟨g1, fun p v => ?_⟩
      rw [g2]
      refine or_congr Iff.rfl (and_congr Iff.rfl ?_)
      constructor
      · rintro ⟨e', h1, h2⟩; exact ⟨e', List.mem_cons_of_mem _ h1, h2⟩
      · rintro ⟨e', h1, h2, h3⟩
        rcases List.mem_cons.mp h1 with h1 | h1
        · cases h1
          rw [hr] at h2; cases h2
        · exact ⟨e', h1, h2, h3⟩
    · have hr' : e.required = false := by simpa using hr
      simp only [List.filter_cons, hr', Bool.not_false, if_true, List.pairwise_cons] at hd
      have hfresh : ∀ v e', (v, e') ∈ l → e'.required = false → e.requested ≠ e'.requested := by
        intro v e' h1 h2
        exact hd.1 (v, e') (List.mem_filter.mpr ⟨h1, by simp [h2]⟩)
      simp only [hr', Bool.false_eq_true, if_false] at h
      cases hp : nsPut m e.requested u with | mk m1 b =>
      cases b with
      | true =>
        obtain ⟨h2, rfl⟩ := nsPut_true hp
        rw [hp] at h
        simp only [Prod.mk.injEq] at h
        obtain ⟨g1, g2⟩ := ih _ (SMap.ascending_insertNew m _ u h2 hs) hd.2 (Prod.ext rfl rfl : passInherited (SMap.insertNew e.requested u m) l =
          ((passInherited (SMap.insertNew e.requested u m) l).1, (passInherited (SMap.insertNew e.requested u m) l).2))
        rw [h.1] at g1 g2
        refine ⟨g1, fun p v => ?_⟩
        rw [g2, SMap.get_insertNew _ _ _ _ h2]
        by_cases hpq : e.requested = p
        · subst hpq
          simp only [if_true, Option.some.injEq, h2, reduceCtorEq, false_and, or_false, false_or, true_and]
          constructor
          · rintro rfl; exact ⟨e, by simp, hr', rfl⟩
          · rintro ⟨e', h3, h4, h5⟩
            rcases List.mem_cons.mp h3 with h3 | h3
            · cases h3; rfl
            · exact absurd h5.symm (hfresh v e' h3 h4)
        · simp only [hpq, if_false]
          refine or_congr Iff.rfl (and_congr Iff.rfl ?_)
          constructor
          · rintro ⟨e', h1, h2⟩; exact ⟨e', List.mem_cons_of_mem _ h1, h2⟩
          · rintro ⟨e', h1, h2, h3⟩
            rcases List.mem_cons.mp h1 with h1 | h1
            · cases h1
              exact absurd h3 hpq
            · exact ⟨e', h1, h2, h3⟩
      | false =>
        obtain ⟨h2, rfl⟩ := nsPut_false hp
        rw [hp] at h
        simp only [Prod.mk.injEq] at h
        obtain ⟨g1, g2⟩ := ih m1 hs hd.2 (Prod.ext rfl rfl : passInherited m1 l = ((passInherited m1 l).1, (passInherited m1 l).2))
        rw [h.1] at g1 g2
        refine ⟨g1, fun p v => ?_⟩
        rw [g2]
        refine or_congr Iff.rfl ⟨fun hh => ⟨hh.1, ?_⟩, fun hh => ⟨hh.1, ?_⟩⟩
        · obtain ⟨h3, e', h1, h4⟩ := hh
          exact ⟨e', List.mem_cons_of_mem _ h1, h4⟩
        · obtain ⟨h3, e', h1, h4, h5⟩ := hh
          rcases List.mem_cons.mp h1 with h1 | h1
          · cases h1
            rw [h5, h3] at h2; cases h2
          · exact ⟨e', h1, h4, h5⟩

/-! ### The calls -/

/-- What a call does to the entry of the URI it concerns. -/
def stepEntry : Option NsEntry → Option String → Option NsEntry
  | none, some p => some { requested := p, assigned := none, required := true, needsPrefix := false }
  | some e, some p => some { e with requested := if e.required then e.requested else p, required := true }
  | none, none => none
  | some e, none => some { e with required := true, needsPrefix := true }

theorem insert_get {dbg : Bool} {b b' : NsBuilder} {p u : String} (h : b.insert dbg p u = .ok b') (v : String) :
    SMap.get b' v = if u = v then stepEntry (SMap.get b v) (some p) else SMap.get b v := by
  unfold NsBuilder.insert at h
  split at h
  · cases h
  · split at h
    · rename_i hg
      cases h
      rw [SMap.get_set]
      split
      · rename_i huv; subst huv; rw [hg]; rfl
      · rfl
    · rename_i e hg
      cases h
      rw [SMap.get_set]
      split
      · rename_i huv; subst huv; rw [hg]; rfl
      · rfl

theorem attribute_get (b : NsBuilder) (u v : String) :
    SMap.get (b.attribute u) v = if u = v then stepEntry (SMap.get b v) none else SMap.get b v := by
  unfold NsBuilder.attribute
  split
  · rename_i hg
    split
    · rename_i huv; subst huv; rw [hg]; rfl
    · rfl
  · rename_i e hg
    rw [SMap.get_set]
    split
    · rename_i huv; subst huv; rw [hg]; rfl
    · rfl

theorem insert_ascending {dbg : Bool} {b b' : NsBuilder} {p u : String} (h : b.insert dbg p u = .ok b') (hs : Ascending (SMap.keys b)) :
    Ascending (SMap.keys b') := by
  unfold NsBuilder.insert at h
  split at h
  · cases h
  · split at h <;> cases h <;> exact SMap.ascending_set _ _ _ hs

theorem attribute_ascending {b : NsBuilder} (u : String) (hs : Ascending (SMap.keys b)) : Ascending (SMap.keys (b.attribute u)) := by
  unfold NsBuilder.attribute
  split
  · exact hs
  · exact SMap.ascending_set _ _ _ hs

theorem concerning_congr (u : String) (l : List BCall) (s s' : List EName) (h : ∀ x, x ∈ s ↔ x ∈ s') : concerning u s l = concerning u s' l := by
  induction l generalizing s s' with
  | nil => rfl
  | cons c l ih =>
    cases c with
    | «namespace» p v => simp only [concerning, ih s s' h]
    | «attribute» n v => simp only [concerning, h n, ih (n :: s) (n :: s') (fun x => by simp [h x])]

theorem runCalls_get (dbg : Bool) (calls : List BCall) (b b' : Builder) (rs : List (Except SErr Unit)) (h : runCalls dbg calls b = .ok (b', rs))
    (hs : Ascending (SMap.keys b.ns)) : Ascending (SMap.keys b'.ns) ∧
      ∀ u, SMap.get b'.ns u = (concerning u b.seen calls).foldl stepEntry (SMap.get b.ns u) := by
  induction calls generalizing b rs with
  | nil =>
    simp only [runCalls, Except.ok.injEq, Prod.mk.injEq] at h
    obtain ⟨rfl, -⟩ := h
    exact ⟨hs, fun u => rfl⟩
  | cons c calls ih =>
    cases c with
    | «namespace» p v =>
      simp only [runCalls] at h
      split at h
      · cases h
      · rename_i b1 h1
        unfold Builder.namespace at h1
        split at h1
        · cases h1
        · rename_i ns hns
          cases h1
          obtain ⟨g1, g2⟩ := ih _ rs h (insert_ascending hns hs)
          refine ⟨g1, fun u => ?_⟩
          rw [g2]
          simp only [concerning, insert_get hns]
          split <;> rfl
    | «attribute» n v =>
      simp only [runCalls] at h
      split at h
      · cases h
      · rename_i b1 r h1
        split at h
        · cases h
        · rename_i b2 rs' h2
          simp only [Except.ok.injEq, Prod.mk.injEq] at h
          obtain ⟨rfl, -⟩ := h
          unfold Builder.attribute at h1
          split at h1
          · rename_i hseen
            have hseen : n ∈ b.seen := by simpa using hseen
            split at h1
            · cases h1
            · cases h1
              obtain ⟨g1, g2⟩ := ih _ rs' h2 hs
              refine ⟨g1, fun u => ?_⟩
              rw [g2]
              simp only [concerning, hseen, not_true_eq_false, and_false, if_false]
              rw [concerning_congr u calls b.seen (n :: b.seen) (fun x => by
                constructor
                · exact fun h => List.mem_cons_of_mem _ h
                · intro h
                  rcases List.mem_cons.mp h with rfl | h
                  · exact hseen
                  · exact h)]
          · rename_i hseen
            have hseen : n ∉ b.seen := by simpa using hseen
            cases h1
            obtain ⟨g1, g2⟩ := ih _ rs' h2 (attribute_ascending _ hs)
            refine ⟨g1, fun u => ?_⟩
            rw [g2]
            simp only [concerning, hseen, not_false_eq_true, and_true, attribute_get]
            rw [concerning_congr u calls (b.seen ++ [n]) (n :: b.seen) (fun x => by simp [or_comm])]
            split <;> rfl

/-! ### What the calls ask for -/

theorem foldl_required (l : List (Option String)) (e : NsEntry) (he : e.required = true) :
    l.foldl stepEntry (some e) = some { e with needsPrefix := e.needsPrefix || decide (none ∈ l) } := by
  induction l generalizing e with
  | nil => simp
  | cons x l ih =>
    cases x with
    | none =>
      simp only [List.foldl_cons, stepEntry]
      rw [ih _ (by simp)]
      simp [he]
    | some p =>
      simp only [List.foldl_cons, stepEntry, he, if_true]
      rw [ih { e with required := true } rfl]
      simp

theorem foldl_entry (own : Bool) (inh : Option String) (l : List (Option String)) (e : Option NsEntry)
    (he : l.foldl stepEntry (inh.map fun q => { requested := q, assigned := none, required := own, needsPrefix := false }) = e) :
    (∀ r, requestOf own inh l = some r ↔ ∃ e', e = some e' ∧ e'.required = true ∧ (e'.requested, e'.needsPrefix) = r) ∧
    (∀ e', e = some e' → e'.required = false → inh = some e'.requested) ∧
    (∀ q, inh = some q → requestOf own inh l = none → ∃ e', e = some e' ∧ e'.required = false ∧ e'.requested = q) := by
  subst he
  cases inh with
  | none =>
    simp only [Option.map_none, requestOf]
    have key : (l.foldl stepEntry none = none ∧ l.dropWhile Option.isNone = []) ∨
        ∃ p rest, l.dropWhile Option.isNone = some p :: rest ∧
          l.foldl stepEntry none = some { requested := p, assigned := none, required := true, needsPrefix := decide (none ∈ rest) } := by
      induction l with
      | nil => exact .inl ⟨rfl, rfl⟩
      | cons x l ih =>
        cases x with
        | none => simpa [List.foldl_cons, stepEntry] using ih
        | some p =>
          refine .inr ⟨p, l, by simp, ?_⟩
          simp only [List.foldl_cons, stepEntry]
          rw [foldl_required l _ rfl]
          simp
    rcases key with ⟨h1, h2⟩ | ⟨p, rest, h1, h2⟩
    · rw [h1, h2]; simp
    · rw [h1, h2]; simp
  | some q =>
    simp only [Option.map_some, requestOf]
    cases own with
    | true =>
      rw [foldl_required l _ rfl]
      simp
    | false =>
      cases l with
      | nil => simp
      | cons x l =>
        cases x with
        | none =>
          simp only [List.foldl_cons, stepEntry]
          rw [foldl_required l _ rfl]
          simp
        | some p =>
          simp only [List.foldl_cons, stepEntry, Bool.false_eq_true, if_false]
          rw [foldl_required l _ rfl]
          simp

/-! ### The parent -/

theorem childLoop_ascending (ns : String) (m : SMap String) (found : Bool) (c : NsBuilder) (hc : Ascending (SMap.keys c)) :
    Ascending (SMap.keys (childLoop ns m found c)) := by
  induction m generalizing found c with
  | nil => exact hc
  | cons x m ih => exact ih _ _ (SMap.ascending_set _ _ _ hc)

theorem childLoop_exact (ns : String) (m : SMap String) (found : Bool) (c : NsBuilder) (hn : (m.map Prod.snd).Nodup)
    (hf : found = true → ns ∉ m.map Prod.snd) (u : String) :
    SMap.get (childLoop ns m found c) u =
      match m.find? fun x => x.2 == u with
      | some x => some { requested := x.1, assigned := none, required := decide (u = ns), needsPrefix := false }
      | none => SMap.get c u := by
  induction m generalizing found c with
  | nil => rfl
  | cons x m ih =>
    obtain ⟨p, v⟩ := x
    simp only [List.map_cons, List.nodup_cons] at hn
    simp only [childLoop]
    rw [ih _ _ hn.2]
    · simp only [List.find?_cons]
      by_cases hvu : v = u
      · subst hvu
        have hnone : m.find? (fun x => x.2 == v) = none := by
          rw [List.find?_eq_none]
          intro x hx
          simp only [beq_iff_eq]
          intro he
          exact hn.1 (he ▸ List.mem_map_of_mem hx)
        simp only [hnone, beq_self_eq_true, SMap.get_set, if_true]
        cases found with
        | false =>
          simp only [Bool.not_false, Bool.true_and]
          congr 2
        | true =>
          have : v ≠ ns := fun he => hf rfl (by simp [he])
          simp [this]
      · have hb : (v == u) = false := by simpa using hvu
        simp only [hb, SMap.get_set, hvu, if_false]
    · intro hfound
      rcases (Bool.or_eq_true _ _).mp hfound with h | h
      · exact fun hh => hf h (by simp [hh])
      · simp only [Bool.and_eq_true, beq_iff_eq] at h
        rw [← h.2]; exact hn.1

end SX
