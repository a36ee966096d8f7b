import Verif.Spec.Clash
import Verif.Proof.OpenEnum

/-
Declarations in which several fields, or several variants, have one name.
-/
namespace SX.Open
open SX.Spec.Open SX.Spec.Clash

variable {σ τ α : Type}

/-! ## Fields that are not found by their name -/

theorem structStep_unheard {fields : List (OField σ τ α)} {fs fs' : List (OCell τ α)}
    (h : CellsOk fields fs) (c : Call σ) (hs : step (structRaw fields) fs c = .ok fs') {p : Nat} {f : OField σ τ α}
    (hf : fields[p]? = some f) (hD : ¬ Hears fields p f) (hnf : ∀ raw, f.kind ≠ .flatten raw) {cell : OCell τ α}
    (hc : fs[p]? = some cell) : fs'[p]? = some cell := by
  cases c with
  | attr n v =>
    change (structAttribute fields fs n v).map Prod.fst = .ok fs' at hs
    unfold structAttribute at hs
    rcases lookup_attr fields n with ⟨q, g, gi, h1, hg, hgk, hgn⟩ | ⟨h1, -⟩
    · rw [h1] at hs
      obtain ⟨d, hd, hok⟩ := h.get hg
      have hqp : q ≠ p := by
        rintro rfl
        rw [hf] at hg
        cases hg
        apply hD
        unfold Hears
        rw [hgk, hgn]
        exact h1
      obtain ⟨nm, kd, df⟩ := g
      simp only at hgk
      subst hgk
      obtain ⟨dc, rfl⟩ := hok
      simp only [hg, hd] at hs
      cases dc with
      | some a =>
        simp only [Option.isSome_some, if_true, Except.map, Except.ok.injEq] at hs
        rw [← hs]; exact hc
      | none =>
        rw [if_neg (by simp)] at hs
        cases hi : gi.init v with
        | ok a =>
          simp only [hi, write, Except.map, Except.ok.injEq] at hs
          rw [← hs, List.getElem?_set_ne hqp]; exact hc
        | err e =>
          simp only [hi, Except.map, Except.ok.injEq] at hs
          rw [← hs]; exact hc
        | panic =>
          simp only [hi, Except.map, Except.ok.injEq] at hs
          rw [← hs]; exact hc
    · rw [h1] at hs
      simp only at hs
      cases hda : delegateAttribute fields n (flatPos fields 0) fs v with
      | error e => rw [hda] at hs; exact nomatch hs
      | ok y =>
        rw [hda] at hs
        obtain ⟨gs, x⟩ := y
        simp only [Except.map, Except.ok.injEq] at hs
        subst hs
        obtain ⟨fs'', r, h2, -, -, -, h3⟩ := delegateAttribute_passed n [] fields [] fs rfl v gs x hda (Shaped.of_cellsOk h)
        rw [h2]
        exact (h3 p f hf hnf).trans hc
  | chars v pos =>
    change (delegateCharacters fields pos (flatPos fields 0) fs v).map Prod.fst = .ok fs' at hs
    cases hda : delegateCharacters fields pos (flatPos fields 0) fs v with
    | error e => rw [hda] at hs; exact nomatch hs
    | ok y =>
      rw [hda] at hs
      obtain ⟨gs, x⟩ := y
      simp only [Except.map, Except.ok.injEq] at hs
      subst hs
      obtain ⟨fs'', r, h2, -, -, -, h3⟩ := delegateCharacters_passed pos [] fields [] fs rfl v gs x hda (Shaped.of_cellsOk h)
      rw [h2]
      exact (h3 p f hf hnf).trans hc
  | elem info s =>
    unfold step at hs
    simp only at hs
    rw [show (structRaw fields).element = structElement fields from rfl] at hs
    unfold structElement at hs
    rcases lookup_elem fields info.name.expanded with ⟨q, g, gi, h1, hg, hgk, hgn⟩ | ⟨h1, h1'⟩
    · rw [h1] at hs
      obtain ⟨d, hd, hok⟩ := h.get hg
      have hqp : q ≠ p := by
        rintro rfl
        rw [hf] at hg
        cases hg
        apply hD
        unfold Hears
        rw [hgk, hgn]
        exact h1
      obtain ⟨nm, kd, df⟩ := g
      simp only at hgk
      subst hgk
      obtain ⟨dc, rfl⟩ := hok
      simp only [hg, hd] at hs
      cases dc with
      | some a =>
        simp only [Option.isSome_some, if_true, give_map, Except.map, Except.ok.injEq] at hs
        rw [← hs, List.getElem?_set_ne hqp]; exact hc
      | none =>
        rw [if_neg (by simp)] at hs
        simp only [give_map] at hs
        cases hi : give s (gi.init info) with
        | ok a =>
          simp only [hi, write, Except.map, Except.ok.injEq] at hs
          rw [← hs, List.getElem?_set_ne hqp]; exact hc
        | err e =>
          simp only [hi, Except.map, Except.ok.injEq] at hs
          rw [← hs]; exact hc
        | panic =>
          simp only [hi, Except.map, Except.ok.injEq] at hs
          rw [← hs]; exact hc
    · rw [h1] at hs
      simp only at hs
      cases hda : delegateElement fields info (flatPos fields 0) fs with
      | error e => rw [hda] at hs; exact nomatch hs
      | ok o =>
        rw [hda] at hs
        rcases delegateElement_passed info s [] fields [] fs rfl o hda (Shaped.of_cellsOk h) with
          ⟨fs'', h2, -, -, h3⟩ | ⟨a, h2, h3⟩
        · subst h2
          simp only [List.nil_append, Except.ok.injEq] at hs
          rw [← hs]
          exact (h3 p f hf hnf).trans hc
        · subst h2
          simp only at hs
          cases hga : give s a with
          | error e => rw [hga] at hs; exact nomatch hs
          | ok y =>
            rw [hga] at hs
            obtain ⟨gs, x⟩ := y
            simp only [Except.map, Except.ok.injEq] at hs
            subst hs
            obtain ⟨fs'', h4, -, -, h5⟩ := h3 gs x hga
            rw [h4]
            exact (h5 p f hf hnf).trans hc

theorem run_unheard {fields : List (OField σ τ α)} (hF : FlatSound fields) {p : Nat} {f : OField σ τ α}
    (hf : fields[p]? = some f) (hD : ¬ Hears fields p f) (hk : ∀ raw, f.kind ≠ .flatten raw) (h : List (Call σ)) (fs fs' : List (OCell τ α))
    (hok : CellsOk fields fs) (hr : run (structRaw fields) h fs = .ok fs') (cell : OCell τ α) (hc : fs[p]? = some cell) :
    fs'[p]? = some cell := by
  induction h generalizing fs with
  | nil =>
    cases hr
    exact hc
  | cons c h ih =>
    obtain ⟨fs1, h1, h2⟩ := structStep_ok hF fs c hok
    unfold run at hr
    rw [h1] at hr
    exact ih fs1 h2 hr (structStep_unheard hok c h1 hf hD hk hc)

/-- Of the fields of one sort with one name, one is found. -/
theorem hears_exists {fields : List (OField σ τ α)} {p : Nat} {f : OField σ τ α} (hf : fields[p]? = some f)
    (hk : ∀ raw, f.kind ≠ .flatten raw) : ∃ q g, fields[q]? = some g ∧ SameSort f g ∧ g.name.expanded = f.name.expanded ∧ Hears fields q g := by
  cases hk' : f.kind with
  | flatten raw => exact absurd hk' (hk raw)
  | element impl =>
    rcases lookup_elem fields f.name.expanded with ⟨q, g, gi, h1, hg, hgk, hgn⟩ | ⟨-, h⟩
    · refine ⟨q, g, hg, .inl ⟨_, _, hk', hgk⟩, hgn, ?_⟩
      unfold Hears
      rw [hgk, hgn]
      exact h1
    · exact absurd rfl (h f (List.mem_of_getElem? hf) impl hk')
  | «attribute» impl =>
    rcases lookup_attr fields f.name.expanded with ⟨q, g, gi, h1, hg, hgk, hgn⟩ | ⟨-, h⟩
    · refine ⟨q, g, hg, .inr ⟨_, _, hk', hgk⟩, hgn, ?_⟩
      unfold Hears
      rw [hgk, hgn]
      exact h1
    · exact absurd rfl (h f (List.mem_of_getElem? hf) impl hk')

theorem hears_unique {fields : List (OField σ τ α)} {p q : Nat} {f g : OField σ τ α} (hs : SameSort f g)
    (hn : g.name.expanded = f.name.expanded) (h1 : Hears fields p f) (h2 : Hears fields q g) : p = q := by
  unfold Hears at h1 h2
  rcases hs with ⟨i, j, hi, hj⟩ | ⟨i, j, hi, hj⟩ <;>
  · rw [hi] at h1
    rw [hj, hn] at h2
    simp only at h1 h2
    rw [h1] at h2
    simpa using h2

/-! ## Variants that are not found by their name -/

theorem bsearch_eq (t : List EName) (name : EName) (fuel left right i : Nat)
    (h : bsearch (fun e => e.cmp name) t fuel left right = .ok (some i)) : ∃ e, t[i]? = some e ∧ e.cmp name = .eq := by
  induction fuel generalizing left right with
  | zero =>
    unfold bsearch at h
    split at h <;> exact nomatch h
  | succ fuel ih =>
    unfold bsearch at h
    split at h
    · simp only at h
      split at h
      · exact nomatch h
      · rename_i e he
        split at h
        · exact ih _ _ h
        · exact ih _ _ h
        · rename_i hc
          simp only [Except.ok.injEq, Option.some.injEq] at h
          exact ⟨e, by rw [← h]; exact he, hc⟩
    · exact nomatch h

theorem lookup_named {name : EName} {t : List (Nat × EName)} {p : Nat} (h : lookup name t = .ok (some p)) : (p, name) ∈ t := by
  unfold lookup at h
  split at h
  · exact nomatch h
  · exact nomatch h
  · rename_i i hf
    obtain ⟨e, he, hc⟩ := bsearch_eq _ _ _ _ _ _ hf
    rw [(cmp_eq_iff _ _).mp hc, List.getElem?_map] at he
    split at h
    · exact nomatch h
    · rename_i q hq
      rw [hq] at he
      simp only [Option.map_some, Option.some.injEq] at he
      simp only [Except.ok.injEq, Option.some.injEq] at h
      rw [← h, ← he]
      exact List.mem_of_getElem? hq

/-- The variant that is found by a name. -/
def choice (vs : List (OVariant σ α)) (n : EName) : Option Nat :=
  match lookup n (enumTable (variantNames vs 0)) with
  | .ok r => r
  | .error _ => none

theorem lookup_choice (vs : List (OVariant σ α)) (n : EName) : lookup n (enumTable (variantNames vs 0)) = .ok (choice vs n) := by
  obtain ⟨r, hr⟩ := lookup_total (enumTable (variantNames vs 0)) n
  unfold choice
  rw [hr]

theorem choice_ok (vs : List (OVariant σ α)) : ChoosesVariant vs (choice vs) where
  named n i h := by
    have hl := lookup_choice vs n
    rw [h] at hl
    obtain ⟨⟨q, nm⟩, h3, h4⟩ := List.mem_map.mp ((enumTable_perm _).mem_iff.mp (lookup_named hl))
    obtain ⟨v, -, h5, h6⟩ := variantNames_mem _ _ _ _ h3
    simp only [Prod.mk.injEq] at h4
    obtain ⟨rfl, h4⟩ := h4
    exact ⟨v, by simpa using h5, by rw [h6]; exact h4⟩
  whenever hns v hv h := by
    have hsort := enumTable_sorted (variantNames vs 0) (by
      have hmem : ∀ d ∈ (variantNames vs 0).map Prod.snd, d ∈ vs.map OVariant.name := by
        intro d hd
        obtain ⟨⟨p, nm⟩, hp, rfl⟩ := List.mem_map.mp hd
        obtain ⟨v, -, h1, h2⟩ := variantNames_mem _ _ _ _ hp
        exact List.mem_map.mpr ⟨v, List.mem_of_getElem? h1, h2⟩
      exact fun d hd e' he' => hns d (hmem d hd) e' (hmem e' he'))
    have hl := lookup_choice vs v.name.expanded
    rw [h] at hl
    have h2 := (lookup_sorted_none _ hsort _).mp hl
    obtain ⟨i, hi⟩ := List.mem_iff_getElem?.mp hv
    exact h2 (List.mem_map.mpr ⟨_, (enumTable_perm _).mem_iff.mpr (List.mem_map.mpr ⟨_, variantNames_of vs 0 i v hi, rfl⟩), rfl⟩)

theorem enumElement_heldBy (vs : List (OVariant σ α)) (st : OEnum α) (info : ElemInfo) (s : Supply σ) (h : EnumOk vs st) :
    (enumElement vs st info = .ok (.back st) ∧ onChildBy (choice vs) vs st.cell info s = (st.cell, none)) ∨
    ∃ a st' x, enumElement vs st info = .ok (.take a) ∧ give s a = .ok (st', x) ∧ EnumOk vs st' ∧
      onChildBy (choice vs) vs st.cell info s = (st'.cell, some x) := by
  unfold enumElement onChildBy
  rw [lookup_choice]
  obtain ⟨ini, cell⟩ := st
  rcases h with ⟨h1, h2⟩ | ⟨h1, i, v, p, h2, h3, h4⟩
  · simp only at h1 h2
    subst h1 h2
    simp only
    rw [if_neg (by simp)]
    cases hf : choice vs info.name.expanded with
    | none => exact .inl ⟨rfl, rfl⟩
    | some i =>
      obtain ⟨v, hv, -⟩ := (choice_ok vs).named _ _ hf
      simp only [hv]
      right
      cases hp : v.payload with
      | none => exact ⟨_, _, _, rfl, rfl, .inr ⟨rfl, i, v, none, rfl, hv, by rw [hp]; rfl⟩, rfl⟩
      | some impl =>
        simp only
        cases hg : give s (impl.init info) with
        | ok a => exact ⟨_, _, _, rfl, by rw [give_map, hg]; rfl, .inr ⟨rfl, i, v, some a, rfl, hv, by rw [hp]; rfl⟩, rfl⟩
        | err e => exact ⟨_, _, _, rfl, by rw [give_map, hg], .inl ⟨rfl, rfl⟩, rfl⟩
        | panic => exact ⟨_, _, _, rfl, by rw [give_map, hg], .inl ⟨rfl, rfl⟩, rfl⟩
  · simp only at h1 h2
    subst h1 h2
    simp only [if_true, h3]
    right
    cases hf : choice vs info.name.expanded with
    | none => exact ⟨_, _, _, rfl, rfl, .inr ⟨rfl, i, v, p, rfl, h3, h4⟩, rfl⟩
    | some j =>
      by_cases hij : i = j
      · subst hij
        simp only [if_true]
        cases hp : v.payload with
        | none =>
          rw [hp] at h4
          cases p with
          | some x => simp at h4
          | none => exact ⟨_, _, _, rfl, rfl, .inr ⟨rfl, i, v, none, rfl, h3, by rw [hp]; rfl⟩, by simp only [h3, hp]⟩
        | some impl =>
          rw [hp] at h4
          cases p with
          | none => simp at h4
          | some x =>
            exact ⟨_, _, _, rfl, by rw [give_map], .inr ⟨rfl, i, v, some _, rfl, h3, by rw [hp]; rfl⟩, by simp only [h3, hp]⟩
      · simp only [if_neg hij]
        rw [if_neg (by simpa using fun hh => hij hh.symm)]
        exact ⟨_, _, _, rfl, rfl, .inr ⟨rfl, i, v, p, rfl, h3, h4⟩, by simp only [h3]⟩

theorem enum_run_heldBy (ident : String) (vs : List (OVariant σ α)) (h : List (Call σ)) (st : OEnum α) (hok : EnumOk vs st) :
    ∃ st', run (enumRaw ident vs) h st = .ok st' ∧ EnumOk vs st' ∧ st'.cell = heldBy (choice vs) vs st.cell h := by
  induction h generalizing st with
  | nil => exact ⟨st, rfl, hok, rfl⟩
  | cons c cs ih =>
    unfold run
    cases c with
    | attr n v => exact ih st hok
    | chars v pos => exact ih st hok
    | elem info s =>
      unfold heldBy step
      simp only
      rw [show (enumRaw ident vs).element = enumElement vs from rfl]
      rcases enumElement_heldBy vs st info s hok with ⟨h1, h2⟩ | ⟨a, st', x, h1, h2, h3, h4⟩
      · rw [h1, h2]
        exact ih st hok
      · rw [h1, h4]
        simp only [h2]
        exact ih st' h3

/-- Only a chosen variant comes to be held, and only because of a child of its name. -/
theorem heldBy_chosen {c : EName → Option Nat} {vs : List (OVariant σ α)} (h : List (Call σ)) (i : Nat) (q : Option α)
    (hh : heldBy c vs none h = some (i, q)) : ∃ info s, Call.elem info s ∈ h ∧ c info.name.expanded = some i := by
  have keep : ∀ (h : List (Call σ)) j p, ∃ q, heldBy c vs (some (j, p)) h = some (j, q) := by
    intro h
    induction h with
    | nil => exact fun j p => ⟨p, rfl⟩
    | cons x h ih =>
      intro j p
      cases x with
      | attr n v => exact ih j p
      | chars v pos => exact ih j p
      | elem info s =>
        unfold heldBy
        suffices hh : ∃ q, (onChildBy c vs (some (j, p)) info s).1 = some (j, q) by
          obtain ⟨q, hq⟩ := hh
          rw [hq]
          exact ih j q
        unfold onChildBy
        cases c info.name.expanded with
        | none => exact ⟨p, rfl⟩
        | some k =>
          simp only
          cases vs[j]? with
          | none => exact ⟨p, rfl⟩
          | some v =>
            simp only
            by_cases hjk : j = k
            · rw [if_pos hjk]
              cases v.payload <;> cases p <;> exact ⟨_, rfl⟩
            · rw [if_neg hjk]
              exact ⟨p, rfl⟩
  induction h with
  | nil => exact nomatch hh
  | cons x h ih =>
    have later : heldBy c vs none h = some (i, q) → ∃ info s, Call.elem info s ∈ x :: h ∧ c info.name.expanded = some i := fun hh => by
      obtain ⟨info, s, h1, h2⟩ := ih hh
      exact ⟨info, s, List.mem_cons_of_mem _ h1, h2⟩
    cases x with
    | attr n v => exact later hh
    | chars v pos => exact later hh
    | elem info s =>
      unfold heldBy at hh
      unfold onChildBy at hh
      cases hc : c info.name.expanded with
      | none => rw [hc] at hh; exact later hh
      | some j =>
        have now : ∀ p, heldBy c vs (some (j, p)) h = some (i, q) → j = i := fun p hp => by
          obtain ⟨q', h1⟩ := keep h j p
          rw [h1] at hp
          cases hp
          rfl
        rw [hc] at hh
        simp only at hh
        cases hv : vs[j]? with
        | none => rw [hv] at hh; exact later hh
        | some v =>
          rw [hv] at hh
          simp only at hh
          cases hp : v.payload with
          | none => rw [hp] at hh; exact ⟨info, s, by simp, by rw [hc, now _ hh]⟩
          | some impl =>
            rw [hp] at hh
            simp only at hh
            cases hg : give s (impl.init info) with
            | ok x => rw [hg] at hh; exact ⟨info, s, by simp, by rw [hc, now _ hh]⟩
            | err e => rw [hg] at hh; exact later hh
            | panic => rw [hg] at hh; exact later hh

end SX.Open
