import Verif.Proof.OpenFields

/-
What the visitor of an enum with arbitrary payload types holds and answers.
-/
namespace SX.Open
open SX.Spec.Open

variable {σ α : Type}

theorem variantNames_of (vs : List (OVariant σ α)) (k p : Nat) (v : OVariant σ α) (h : vs[p]? = some v) :
    (p + k, v.name) ∈ variantNames vs k := by
  induction vs generalizing k p with
  | nil => simp at h
  | cons w vs ih =>
    cases p with
    | zero =>
      simp only [List.getElem?_cons_zero, Option.some.injEq] at h
      subst h
      simp [variantNames]
    | succ p =>
      have := ih (k + 1) p (by simpa using h)
      rw [show p + (k + 1) = p + 1 + k by omega] at this
      exact List.mem_cons_of_mem _ this

theorem variantFor_some {vs : List (OVariant σ α)} {n : EName} {i : Nat} {v : OVariant σ α} (h : variantFor vs n = some (i, v)) :
    vs[i]? = some v ∧ v.name.expanded = n := by
  unfold variantFor at h
  cases hf : vs.findIdx? (fun v => decide (v.name.expanded = n)) with
  | none => rw [hf] at h; exact nomatch h
  | some j =>
    rw [hf] at h
    obtain ⟨hlt, hp, -⟩ := List.findIdx?_eq_some_iff_getElem.mp hf
    simp only [List.getElem?_eq_getElem hlt, Option.map_some, Option.some.injEq, Prod.mk.injEq] at h
    obtain ⟨rfl, rfl⟩ := h
    exact ⟨List.getElem?_eq_getElem hlt, by simpa using hp⟩

theorem variantFor_none {vs : List (OVariant σ α)} {n : EName} (h : variantFor vs n = none) :
    ∀ v ∈ vs, v.name.expanded ≠ n := by
  unfold variantFor at h
  cases hf : vs.findIdx? (fun v => decide (v.name.expanded = n)) with
  | none =>
    intro v hv
    simpa using List.findIdx?_eq_none_iff.mp hf v hv
  | some j =>
    rw [hf] at h
    obtain ⟨hlt, -⟩ := List.findIdx?_eq_some_iff_getElem.mp hf
    simp [List.getElem?_eq_getElem hlt] at h

theorem lookup_variantFor {vs : List (OVariant σ α)} (hs : Searchable vs) (n : EName) :
    lookup n (enumTable (variantNames vs 0)) = .ok ((variantFor vs n).map Prod.fst) := by
  have hsort := enumTable_sorted (variantNames vs 0) (by
    have hmem : ∀ d ∈ (variantNames vs 0).map Prod.snd, d ∈ vs.map OVariant.name := by
      intro d hd
      obtain ⟨⟨p, nm⟩, hp, rfl⟩ := List.mem_map.mp hd
      obtain ⟨v, -, h1, h2⟩ := variantNames_mem _ _ _ _ hp
      exact List.mem_map.mpr ⟨v, List.mem_of_getElem? h1, h2⟩
    exact fun d hd e' he' => hs.noneFirst d (hmem d hd) e' (hmem e' he'))
  rcases lookup_cases _ hsort n with ⟨p, h1, h2⟩ | ⟨h1, h2⟩
  · obtain ⟨⟨q, nm⟩, h3, h4⟩ := List.mem_map.mp ((enumTable_perm _).mem_iff.mp h2)
    obtain ⟨v, -, h5, h6⟩ := variantNames_mem _ _ _ _ h3
    simp only [Prod.mk.injEq] at h4
    obtain ⟨rfl, h4⟩ := h4
    rw [h1]
    cases hv : variantFor vs n with
    | none => exact absurd (by rw [h6]; exact h4) (variantFor_none hv v (List.mem_of_getElem? h5))
    | some x =>
      obtain ⟨i, w⟩ := x
      obtain ⟨h7, h8⟩ := variantFor_some hv
      rw [hs.distinct q i v w (by simpa using h5) h7 (by rw [h6, h8]; exact h4)]
      rfl
  · rw [h1]
    cases hv : variantFor vs n with
    | none => rfl
    | some x =>
      obtain ⟨i, w⟩ := x
      obtain ⟨h7, h8⟩ := variantFor_some hv
      exfalso
      apply h2
      have hm := variantNames_of vs 0 i w h7
      exact List.mem_map.mpr ⟨_, (enumTable_perm _).mem_iff.mpr (List.mem_map.mpr ⟨_, hm, rfl⟩), h8⟩

theorem enumElement_held {vs : List (OVariant σ α)} (hs : Searchable vs) (st : OEnum α) (info : ElemInfo) (s : Supply σ)
    (h : EnumOk vs st) :
    (enumElement vs st info = .ok (.back st) ∧ onChild vs st.cell info s = (st.cell, none)) ∨
    ∃ a st' x, enumElement vs st info = .ok (.take a) ∧ give s a = .ok (st', x) ∧ EnumOk vs st' ∧
      onChild vs st.cell info s = (st'.cell, some x) := by
  unfold enumElement onChild
  rw [lookup_variantFor hs]
  obtain ⟨ini, cell⟩ := st
  rcases h with ⟨h1, h2⟩ | ⟨h1, i, v, p, h2, h3, h4⟩
  · simp only at h1 h2
    subst h1 h2
    simp only
    rw [if_neg (by simp)]
    cases hf : variantFor vs info.name.expanded with
    | none => exact .inl ⟨rfl, rfl⟩
    | some x =>
      obtain ⟨i, v⟩ := x
      obtain ⟨hv, -⟩ := variantFor_some hf
      simp only [Option.map_some, hv]
      right
      cases hp : v.payload with
      | none => exact ⟨_, _, _, rfl, rfl, .inr ⟨rfl, i, v, none, rfl, hv, by rw [hp]; rfl⟩, rfl⟩
      | some impl =>
        simp only
        cases hg : give s (impl.init info) with
        | ok a => exact ⟨_, _, _, rfl, by rw [give_map, hg]; rfl, .inr ⟨rfl, i, v, some a, rfl, hv, by rw [hp]; rfl⟩, rfl⟩
        | err e => exact ⟨_, _, _, rfl, by rw [give_map, hg], .inl ⟨rfl, rfl⟩, rfl⟩
        | panic => exact ⟨_, _, _, rfl, by rw [give_map, hg], .inl ⟨rfl, rfl⟩, rfl⟩
  · simp only at h1 h2
    subst h1 h2
    simp only [if_true, h3]
    right
    cases hf : variantFor vs info.name.expanded with
    | none => exact ⟨_, _, _, rfl, rfl, .inr ⟨rfl, i, v, p, rfl, h3, h4⟩, rfl⟩
    | some x =>
      obtain ⟨j, w⟩ := x
      obtain ⟨hw, -⟩ := variantFor_some hf
      by_cases hij : i = j
      · subst hij
        rw [h3] at hw
        cases hw
        simp only [Option.map_some, if_true]
        cases hp : v.payload with
        | none =>
          rw [hp] at h4
          cases p with
          | some x => simp at h4
          | none => exact ⟨_, _, _, rfl, rfl, .inr ⟨rfl, i, v, none, rfl, h3, by rw [hp]; rfl⟩, rfl⟩
        | some impl =>
          rw [hp] at h4
          cases p with
          | none => simp at h4
          | some x =>
            exact ⟨_, _, _, rfl, by rw [give_map], .inr ⟨rfl, i, v, some _, rfl, h3, by rw [hp]; rfl⟩, rfl⟩
      · simp only [Option.map_some, if_neg hij]
        rw [if_neg (by simpa using fun hh => hij hh.symm)]
        rw [h3]
        exact ⟨_, _, _, rfl, rfl, .inr ⟨rfl, i, v, p, rfl, h3, h4⟩, rfl⟩

theorem enum_run_held (ident : String) {vs : List (OVariant σ α)} (hs : Searchable vs) (h : List (Call σ)) (st : OEnum α)
    (hok : EnumOk vs st) :
    ∃ st', run (enumRaw ident vs) h st = .ok st' ∧ EnumOk vs st' ∧ st'.cell = held vs st.cell h := by
  induction h generalizing st with
  | nil => exact ⟨st, rfl, hok, rfl⟩
  | cons c cs ih =>
    unfold run
    cases c with
    | attr n v => exact ih st hok
    | chars v pos => exact ih st hok
    | elem info s =>
      unfold held step
      simp only
      rw [show (enumRaw ident vs).element = enumElement vs from rfl]
      rcases enumElement_held hs st info s hok with ⟨h1, h2⟩ | ⟨a, st', x, h1, h2, h3, h4⟩
      · rw [h1, h2]
        exact ih st hok
      · rw [h1, h4]
        simp only [h2]
        exact ih st' h3

/-! ## What is held, by variant -/

theorem held_some {vs : List (OVariant σ α)} (hs : Searchable vs) (h : List (Call σ)) (i : Nat) (v : OVariant σ α)
    (hv : vs[i]? = some v) (p : Option α) (hp : p.isSome = v.payload.isSome) :
    ∃ q, held vs (some (i, p)) h = some (i, q) ∧ q.isSome = v.payload.isSome ∧
      ∀ impl, v.payload = some impl → q = afterElems impl p (elems v.name.expanded h) := by
  induction h generalizing p with
  | nil => exact ⟨p, rfl, hp, fun impl _ => by simp [elems, afterElems]⟩
  | cons c cs ih =>
    cases c with
    | attr n v => exact ih p hp
    | chars v pos => exact ih p hp
    | elem info s =>
      unfold held elems onChild
      cases hf : variantFor vs info.name.expanded with
      | none =>
        have hne : info.name.expanded ≠ v.name.expanded := fun hh => variantFor_none hf v (List.mem_of_getElem? hv) hh.symm
        rw [if_neg hne]
        exact ih p hp
      | some x =>
        obtain ⟨j, w⟩ := x
        obtain ⟨hw, hn⟩ := variantFor_some hf
        by_cases hij : i = j
        · subst hij
          rw [hv] at hw
          cases hw
          rw [if_pos hn.symm]
          simp only [if_true]
          cases hpl : v.payload with
          | none =>
            rw [hpl] at hp
            cases p with
            | some x => simp at hp
            | none =>
              obtain ⟨q, h1, h2, -⟩ := ih none (by rw [hpl]; rfl)
              exact ⟨q, h1, by rw [h2, hpl], nofun⟩
          | some impl =>
            rw [hpl] at hp
            cases p with
            | none => simp at hp
            | some x =>
              obtain ⟨q, h1, h2, h3⟩ := ih (some (give s (impl.update x info)).1) (by rw [hpl]; rfl)
              refine ⟨q, h1, by rw [h2, hpl], fun impl' hi => ?_⟩
              cases hi
              rw [h3 impl hpl]
              simp [afterElems]
        · have hne : info.name.expanded ≠ v.name.expanded := fun hh =>
            hij (hs.distinct i j v w hv hw (by rw [hn, hh]))
          rw [if_neg hne]
          simp only [if_neg hij, hv]
          exact ih p hp

/-- Why a variant is held: the first child that is a variant (and whose `init` succeeded) has its name. -/
def HeldFor (vs : List (OVariant σ α)) (h : List (Call σ)) (i : Nat) (q : Option α) : Prop :=
  ∃ v, vs[i]? = some v ∧ q.isSome = v.payload.isSome ∧
    (∀ impl, v.payload = some impl → q = afterElems impl none (elems v.name.expanded h)) ∧
    ∃ pre info s post, h = pre ++ .elem info s :: post ∧ held vs none pre = none ∧ info.name.expanded = v.name.expanded ∧
      ∀ impl, v.payload = some impl → ∃ x, give s (impl.init info) = .ok x

theorem held_none {vs : List (OVariant σ α)} (hs : Searchable vs) (h : List (Call σ)) (i : Nat) (q : Option α)
    (hh : held vs none h = some (i, q)) : HeldFor vs h i q := by
  induction h with
  | nil => exact nomatch hh
  | cons c cs ih =>
    cases c with
    | attr n v =>
      obtain ⟨v, h1, h2, h3, pre, info, s, post, rfl, h4, h5, h6⟩ := ih hh
      exact ⟨v, h1, h2, h3, _ :: pre, info, s, post, rfl, h4, h5, h6⟩
    | chars v pos =>
      obtain ⟨v, h1, h2, h3, pre, info, s, post, rfl, h4, h5, h6⟩ := ih hh
      exact ⟨v, h1, h2, h3, _ :: pre, info, s, post, rfl, h4, h5, h6⟩
    | elem info s =>
      unfold held at hh
      cases hf : variantFor vs info.name.expanded with
      | none =>
        have ho : onChild vs none info s = (none, none) := by unfold onChild; rw [hf]
        rw [ho] at hh
        obtain ⟨v, h1, h2, h3, pre, info', s', post, rfl, h4, h5, h6⟩ := ih hh
        refine ⟨v, h1, h2, fun impl hi => ?_, _ :: pre, info', s', post, rfl, by unfold held; rw [ho]; exact h4, h5, h6⟩
        unfold elems
        rw [if_neg (fun hh => variantFor_none hf v (List.mem_of_getElem? h1) hh.symm)]
        exact h3 impl hi
      | some x =>
        obtain ⟨j, w⟩ := x
        obtain ⟨hw, hn⟩ := variantFor_some hf
        have keep : onChild vs none info s = (none, (onChild vs none info s).2) →
            (∀ impl, w.payload = some impl → ∀ x, give s (impl.init info) ≠ .ok x) → HeldFor vs (.elem info s :: cs) i q := fun ho hfail => by
          rw [ho] at hh
          obtain ⟨v, h1, h2, h3, pre, info', s', post, rfl, h4, h5, h6⟩ := ih hh
          refine ⟨v, h1, h2, fun impl hi => ?_, _ :: pre, info', s', post, rfl, by unfold held; rw [ho]; exact h4, h5, h6⟩
          unfold elems
          by_cases hnm : info.name.expanded = v.name.expanded
          · rw [if_pos hnm]
            have hij := hs.distinct i j v w h1 hw (by rw [hn, hnm])
            subst hij
            rw [h1] at hw
            cases hw
            rw [h3 impl hi]
            cases hg : give s (impl.init info) with
            | ok x => exact absurd hg (hfail impl hi x)
            | err e => rw [afterElems.eq_def _ _ (_ :: _)]; simp only [hg]
            | panic => rw [afterElems.eq_def _ _ (_ :: _)]; simp only [hg]
          · rw [if_neg hnm]
            exact h3 impl hi
        cases hpl : w.payload with
        | none =>
          have ho : onChild vs none info s = (some (j, none), some (.ok ())) := by unfold onChild; rw [hf]; simp only [hpl]
          rw [ho] at hh
          obtain ⟨q', h1, h2, -⟩ := held_some hs cs j w hw none (by rw [hpl]; rfl)
          rw [h1] at hh
          cases hh
          exact ⟨w, hw, h2, by rw [hpl]; exact nofun, [], info, s, cs, rfl, rfl, hn.symm, by rw [hpl]; exact nofun⟩
        | some impl =>
          cases hg : give s (impl.init info) with
          | ok x =>
            have ho : onChild vs none info s = (some (j, some x), some (.ok ())) := by
              unfold onChild; rw [hf]; simp only [hpl, hg]
            rw [ho] at hh
            obtain ⟨q', h1, h2, h3⟩ := held_some hs cs j w hw (some x) (by rw [hpl]; rfl)
            rw [h1] at hh
            cases hh
            refine ⟨w, hw, h2, fun impl' hi => ?_, [], info, s, cs, rfl, rfl, hn.symm, fun impl' hi => ?_⟩
            · rw [hpl] at hi
              cases hi
              unfold elems
              rw [if_pos hn.symm, h3 impl hpl, afterElems.eq_def _ none (_ :: _)]
              simp only [hg]
            · rw [hpl] at hi
              cases hi
              exact ⟨x, hg⟩
          | err e =>
            exact keep (by unfold onChild; rw [hf]; simp only [hpl, hg]) (fun impl' hi x hx => by
              rw [hpl] at hi; cases hi; rw [hg] at hx; exact nomatch hx)
          | panic =>
            exact keep (by unfold onChild; rw [hf]; simp only [hpl, hg]) (fun impl' hi x hx => by
              rw [hpl] at hi; cases hi; rw [hg] at hx; exact nomatch hx)

end SX.Open
