import Verif.Proof.PanicAs

/-
Derived types, and fields of them, do the same but return an error in place of panics, if the types of their fields do (C83).
-/
namespace SX.Open
open SX.UnwindDe SX.OpenUnwind Spec.Failures Spec.PanicAs

variable {σ τ' α' : Type} [Mark]

/-- Closes goals that are one of the three cases. -/
local macro "sim_done" : tactic => `(tactic| first
  | exact rfl
  | exact .ok _
  | exact .err _ ‹_›
  | exact .panic _ ‹_›
  | exact ⟨rfl, .ok _⟩
  | exact ⟨rfl, .err _ ‹_›⟩
  | exact ⟨rfl, .panic _ ‹_›⟩
  | exact .err _ (fun h => by cases h)
  | exact ⟨rfl, .err _ (fun h => by cases h)⟩)

theorem simAct_map {ρ ρ' : Type} {R : ρ → ρ → Prop} {R' : ρ' → ρ' → Prop} {a a' : Action (σ × Bool) ρ} (h : SimAct R a a') (f f' : ρ → ρ')
    (hf : ∀ r r', R r r' → R' (f r) (f' r')) : SimAct R' (a.map f) (a'.map f') := by
  cases a <;> cases a' <;> first | exact h.elim | skip
  · exact hf _ _ h
  · exact fun x hx => hf _ _ (h x hx)
  · exact ⟨h.1, fun sub b b' r r' ht => hf _ _ (h.2 sub b b' r r' ht)⟩

theorem simFault_rfl {β : Type} {R : β → β → Prop} (hR : ∀ x, R x x) (x : Except Fault β) : LikeFault R x x := by
  cases x
  · sim_done
  · exact hR _

theorem simMut_ok {ε τ α : Type} [Stands ε] (x : τ) (a : α) : SimMut (ε := ε) (x, .ok a) (x, .ok a) := ⟨rfl, .ok _⟩

theorem sim_newCell {f f' : OField (σ × Bool) τ' α'} (h : SimField f f') : newCell f = newCell f' := by
  obtain ⟨n, k, d⟩ := f
  obtain ⟨n', k', d'⟩ := f'
  obtain ⟨hn, hd, hk⟩ := h
  cases k <;> cases k' <;> first | exact hk.elim | rfl | skip
  simp only [newCell, hk.new]

theorem sim_write {ε τ γ : Type} [Stands ε] (x : Except Fault τ) (g : τ → γ) :
    LikeFault SimMut (x.map fun c => (g c, (Ret.ok () : Ret ε Unit))) (x.map fun c => (g c, .ok ())) := by
  cases x <;> sim_done

theorem sim_plain {f f' : OField (σ × Bool) τ' α'} (hd : f.default = f'.default) (hp : f.default ≠ some .panic) (present : Bool) (cell : Option α') {m m' : Ret VErr α'} (hm : Sim m m') :
    LikeFault SimMut (finalizeCell.plain (τ := τ') f present cell m) (finalizeCell.plain f' present cell m') := by
  rw [hd] at hp
  simp only [finalizeCell.plain, hd]
  cases present with
  | true => sim_done
  | false =>
    simp only [Bool.false_eq_true, if_false]
    revert hp
    rcases f'.default with _ | (d | e | _) <;> intro hp
    · simp only
      cases hm with
      | ok v => exact sim_write _ _
      | err e he => sim_done
      | panic e he => sim_done
    · exact sim_write _ _
    · exact e.elim
    · exact absurd rfl hp

theorem sim_finalizeCell {f f' : OField (σ × Bool) τ' α'} (h : SimField f f') (c : OCell τ' α') :
    LikeFault SimMut (finalizeCell f c) (finalizeCell f' c) := by
  obtain ⟨n, k, d⟩ := f
  obtain ⟨n', k', d'⟩ := f'
  obtain ⟨h1, ⟨h2, h3⟩, hk⟩ := h
  simp only at h1 h2 h3 hk
  subst h1 h2
  cases k <;> cases k' <;> first | exact hk.elim | skip
  · cases c
    · exact sim_plain rfl h3 _ _ (hk.missing _)
    · sim_done
  · cases c
    · exact sim_plain rfl h3 _ _ (hk.missing _)
    · sim_done
  · cases c with
    | plain _ _ => sim_done
    | flat t =>
      rename_i raw raw'
      have := hk.finalize t d h3
      simp only [finalizeCell]
      revert this
      rcases raw.finalize t d with f | ⟨t1, r1⟩ <;> rcases raw'.finalize t d with f' | ⟨t2, r2⟩ <;> intro h
      · exact h
      · exact h.elim
      · exact h.elim
      · exact ⟨congrArg OCell.flat h.1, h.2⟩

theorem sim_cellOut {f f' : OField (σ × Bool) τ' α'} (h : SimField f f') (c : OCell τ' α') : cellOut f c = cellOut f' c := by
  obtain ⟨n, k, d⟩ := f
  obtain ⟨n', k', d'⟩ := f'
  obtain ⟨hn, hd, hk⟩ := h
  cases k <;> cases k' <;> first | exact hk.elim | skip
  · cases c <;> rfl
  · cases c <;> rfl
  · cases c
    · rfl
    · simp only [cellOut, hk.out]

theorem sim_elemNames : ∀ {fs fs' : List (OField (σ × Bool) τ' α')}, SimFields fs fs' → ∀ p, elemNames fs p = elemNames fs' p
  | [], [], _, _ => rfl
  | ⟨n, k, d⟩ :: fs, ⟨n', k', d'⟩ :: fs', ⟨⟨h1, _, hk⟩, h⟩, p => by
    cases k <;> cases k' <;> first | exact hk.elim | skip
    all_goals simp only [elemNames, sim_elemNames h]
    cases h1; rfl

theorem sim_attrNames : ∀ {fs fs' : List (OField (σ × Bool) τ' α')}, SimFields fs fs' → ∀ p, attrNames fs p = attrNames fs' p
  | [], [], _, _ => rfl
  | ⟨n, k, d⟩ :: fs, ⟨n', k', d'⟩ :: fs', ⟨⟨h1, _, hk⟩, h⟩, p => by
    cases k <;> cases k' <;> first | exact hk.elim | skip
    all_goals simp only [attrNames, sim_attrNames h]
    cases h1; rfl

theorem sim_flatPos : ∀ {fs fs' : List (OField (σ × Bool) τ' α')}, SimFields fs fs' → ∀ p, flatPos fs p = flatPos fs' p
  | [], [], _, _ => rfl
  | ⟨n, k, d⟩ :: fs, ⟨n', k', d'⟩ :: fs', ⟨⟨h1, _, hk⟩, h⟩, p => by
    cases k <;> cases k' <;> first | exact hk.elim | skip
    all_goals simp only [flatPos, sim_flatPos h]

theorem sim_get : ∀ {fs fs' : List (OField (σ × Bool) τ' α')}, SimFields fs fs' → ∀ p : Nat,
    fs[p]? = none ∧ fs'[p]? = none ∨ ∃ f f', fs[p]? = some f ∧ fs'[p]? = some f' ∧ SimField f f'
  | [], [], _, _ => .inl ⟨rfl, rfl⟩
  | f :: _, f' :: _, ⟨hf, _⟩, 0 => .inr ⟨f, f', rfl, rfl, hf⟩
  | _ :: fs, _ :: fs', ⟨_, h⟩, p + 1 => sim_get h p

theorem sim_newCells : ∀ {fs fs' : List (OField (σ × Bool) τ' α')}, SimFields fs fs' → fs.map newCell = fs'.map newCell
  | [], [], _ => rfl
  | f :: fs, f' :: fs', ⟨hf, h⟩ => by simp only [List.map_cons, sim_newCell hf, sim_newCells h]

theorem sim_finalizeCells : ∀ {fs fs' : List (OField (σ × Bool) τ' α')}, SimFields fs fs' → ∀ cs,
    LikeFault SimMut (finalizeCells fs cs) (finalizeCells fs' cs)
  | [], [], _, _ => ⟨rfl, .ok _⟩
  | _ :: _, _ :: _, _, [] => rfl
  | f :: fs, f' :: fs', ⟨hf, h⟩, c :: cs => by
    have h1 := sim_finalizeCell hf c
    simp only [finalizeCells]
    revert h1
    rcases finalizeCell f c with x | ⟨c1, r1⟩ <;> rcases finalizeCell f' c with x' | ⟨c2, r2⟩ <;> intro h1
    · exact h1
    · exact h1.elim
    · exact h1.elim
    · obtain ⟨h2, h3⟩ := h1
      cases h2
      rcases r1 with _ | e | _ <;> rcases r2 with _ | e' | _ <;> first | cases h3 | skip
      · have h4 := sim_finalizeCells h cs
        simp only
        revert h4
        rcases finalizeCells fs cs with x | ⟨cs1, r1⟩ <;> rcases finalizeCells fs' cs with x' | ⟨cs2, r2⟩ <;> intro h4
        · exact h4
        · exact h4.elim
        · exact h4.elim
        · exact ⟨congrArg (List.cons c1) h4.1, h4.2⟩
      all_goals sim_done

theorem sim_structOut : ∀ {fs fs' : List (OField (σ × Bool) τ' α')}, SimFields fs fs' → ∀ cs, structOut fs cs = structOut fs' cs
  | [], [], _, _ => rfl
  | _ :: _, _ :: _, _, [] => rfl
  | f :: fs, f' :: fs', ⟨hf, h⟩, c :: cs => by simp only [structOut, sim_cellOut hf, sim_structOut h]

theorem sim_delegateAttribute {fs fs' : List (OField (σ × Bool) τ' α')} (h : SimFields fs fs') (n : EName) (ps : List Nat) (cs : List (OCell τ' α'))
    (v : String) : LikeFault SimMut (delegateAttribute fs n ps cs v) (delegateAttribute fs' n ps cs v) := by
  induction ps generalizing cs v with
  | nil => sim_done
  | cons p ps ih =>
    simp only [delegateAttribute]
    rcases sim_get h p with ⟨h1, h2⟩ | ⟨⟨n1, k1, d1⟩, ⟨n2, k2, d2⟩, h1, h2, _, _, hk⟩
    · rw [h1, h2]; sim_done
    · rw [h1, h2]
      cases k1 <;> cases k2 <;> first | exact hk.elim | sim_done | skip
      rename_i raw raw' _ _
      rcases cs[p]? with _ | (_ | t)
      · sim_done
      · sim_done
      · have h3 := hk.attr t n v
        simp only
        revert h3
        rcases raw.attr t n v with x | ⟨t1, (_ | s1) | e | _⟩ <;> rcases raw'.attr t n v with x' | ⟨t2, (_ | s2) | e' | _⟩ <;>
          intro h3 <;> first | exact h3.elim | exact h3 | (obtain ⟨h4, h5⟩ := h3; cases h4; cases h5; skip)
        all_goals first | exact ih _ _ | sim_done

theorem sim_delegateCharacters {fs fs' : List (OField (σ × Bool) τ' α')} (h : SimFields fs fs') (pos : Pos) (ps : List Nat)
    (cs : List (OCell τ' α')) (v : String) : LikeFault SimMut (delegateCharacters fs pos ps cs v) (delegateCharacters fs' pos ps cs v) := by
  induction ps generalizing cs v with
  | nil => sim_done
  | cons p ps ih =>
    simp only [delegateCharacters]
    rcases sim_get h p with ⟨h1, h2⟩ | ⟨⟨n1, k1, d1⟩, ⟨n2, k2, d2⟩, h1, h2, _, _, hk⟩
    · rw [h1, h2]; sim_done
    · rw [h1, h2]
      cases k1 <;> cases k2 <;> first | exact hk.elim | sim_done | skip
      rename_i raw raw' _ _
      rcases cs[p]? with _ | (_ | t)
      · sim_done
      · sim_done
      · have h3 := hk.characters t v pos
        simp only
        revert h3
        rcases raw.characters t v pos with x | ⟨t1, (_ | s1) | e | _⟩ <;> rcases raw'.characters t v pos with x' | ⟨t2, (_ | s2) | e' | _⟩ <;>
          intro h3 <;> first | exact h3.elim | exact h3 | (obtain ⟨h4, h5⟩ := h3; cases h4; cases h5; skip)
        all_goals first | exact ih _ _ | sim_done

theorem simFault_state {τ τ'' ε γ : Type} [Stands ε] {x y : Except Fault (τ × Ret ε γ)} (h : LikeFault SimMut x y) (g : τ → τ'') :
    LikeFault SimMut (x.map fun x => (g x.1, x.2)) (y.map fun x => (g x.1, x.2)) := by
  rcases x with f | ⟨t1, r1⟩ <;> rcases y with f' | ⟨t2, r2⟩
  · exact h
  · exact h.elim
  · exact h.elim
  · exact ⟨congrArg g h.1, h.2⟩

theorem sim_delegateElement {fs fs' : List (OField (σ × Bool) τ' α')} (h : SimFields fs fs') (info : ElemInfo) (ps : List Nat)
    (cs : List (OCell τ' α')) : LikeFault SimOffer (delegateElement fs info ps cs) (delegateElement fs' info ps cs) := by
  induction ps generalizing cs with
  | nil => sim_done
  | cons p ps ih =>
    simp only [delegateElement]
    rcases sim_get h p with ⟨h1, h2⟩ | ⟨⟨n1, k1, d1⟩, ⟨n2, k2, d2⟩, h1, h2, hn, hd, hk⟩
    · rw [h1, h2]; sim_done
    · rw [h1, h2]
      clear h1 h2 hn hd
      cases k1 <;> cases k2 <;> first | exact hk.elim | sim_done | skip
      rename_i raw raw'
      rcases cs[p]? with _ | (_ | t)
      · sim_done
      · sim_done
      · simp only
        have ho := hk.elem t info
        revert ho
        rcases raw.element t info with f | (t1 | a) <;> rcases raw'.element t info with f' | (t1' | a') <;> intro ho <;> first | exact ho.elim | skip
        · exact ho
        · cases ho; exact ih _
        · exact simAct_map ho _ _ fun r r' hr => simFault_state hr fun t => cs.set p (.flat t)

theorem sim_structElement {fs fs' : List (OField (σ × Bool) τ' α')} (h : SimFields fs fs') (cs : List (OCell τ' α')) (info : ElemInfo) :
    LikeFault SimOffer (structElement fs cs info) (structElement fs' cs info) := by
  unfold structElement
  rw [← sim_elemNames h, ← sim_flatPos h]
  rcases lookup info.name.expanded (structTable (elemNames fs 0)) with f | _ | p
  · sim_done
  · exact sim_delegateElement h info _ cs
  · simp only
    rcases sim_get h p with ⟨h1, h2⟩ | ⟨⟨n1, k1, d1⟩, ⟨n2, k2, d2⟩, h1, h2, _, _, hk⟩
    · rw [h1, h2]; sim_done
    · rw [h1, h2]
      cases k1 <;> cases k2 <;> first | exact hk.elim | sim_done | skip
      rcases cs[p]? with _ | (⟨present, cell⟩ | t)
      · sim_done
      · simp only
        cases present with
        | true =>
          cases cell with
          | none => sim_done
          | some v =>
            refine simAct_map (hk.update v info) _ _ ?_
            rintro ⟨v1, r1⟩ ⟨v2, r2⟩ ⟨hv, hr⟩
            cases hv
            exact ⟨rfl, hr⟩
        | false =>
          refine simAct_map (hk.init info) _ _ ?_
          rintro (v | e | _) (v' | e' | _) hr <;> cases hr
          · exact sim_write _ _
          all_goals sim_done
      · sim_done

theorem sim_structAttribute {fs fs' : List (OField (σ × Bool) τ' α')} (h : SimFields fs fs') (cs : List (OCell τ' α')) (n : EName) (v : String) :
    LikeFault SimMut (structAttribute fs cs n v) (structAttribute fs' cs n v) := by
  unfold structAttribute
  rw [← sim_attrNames h, ← sim_flatPos h]
  rcases lookup n (structTable (attrNames fs 0)) with f | _ | p
  · sim_done
  · exact sim_delegateAttribute h n _ cs v
  · simp only
    rcases sim_get h p with ⟨h1, h2⟩ | ⟨⟨n1, k1, d1⟩, ⟨n2, k2, d2⟩, h1, h2, _, _, hk⟩
    · rw [h1, h2]; sim_done
    · rw [h1, h2]
      clear h1 h2
      cases k1 <;> cases k2 <;> first | exact hk.elim | sim_done | skip
      rename_i impl impl' _ _
      rcases cs[p]? with _ | (⟨present, cell⟩ | t)
      · sim_done
      · simp only
        cases present with
        | true => sim_done
        | false =>
          have hi := hk.init v
          simp only [Bool.false_eq_true, if_false]
          revert hi
          rcases impl.init v with w | e | _ <;> rcases impl'.init v with w' | e' | _ <;> intro hi <;> cases hi
          · simp only
            cases write cell w <;> sim_done
          all_goals sim_done
      · sim_done

theorem struct_sim {fs fs' : List (OField (σ × Bool) τ' α')} (h : SimFields fs fs') : SimRaw (structRaw fs) (structRaw fs') where
  new := sim_newCells h
  attr cs n v := sim_structAttribute h cs n v
  characters cs s pos := by
    simp only [structRaw, ← sim_flatPos h]
    exact sim_delegateCharacters h pos _ cs s
  elem cs info := sim_structElement h cs info
  finalize cs _ _ := sim_finalizeCells h cs
  out := funext fun cs => sim_structOut h cs

theorem sim_variantNames : ∀ {vs vs' : List (OVariant (σ × Bool) α')}, SimVariants vs vs' → ∀ p, variantNames vs p = variantNames vs' p
  | [], [], _, _ => rfl
  | v :: vs, v' :: vs', ⟨⟨h1, _⟩, h⟩, p => by simp only [variantNames, h1, sim_variantNames h]

theorem sim_getVariant : ∀ {vs vs' : List (OVariant (σ × Bool) α')}, SimVariants vs vs' → ∀ p : Nat,
    vs[p]? = none ∧ vs'[p]? = none ∨ ∃ v v', vs[p]? = some v ∧ vs'[p]? = some v' ∧ v.name = v'.name ∧
      (v.payload = none ∧ v'.payload = none ∨ ∃ impl impl', v.payload = some impl ∧ v'.payload = some impl' ∧ SimImpl impl impl')
  | [], [], _, _ => .inl ⟨rfl, rfl⟩
  | v :: _, v' :: _, ⟨⟨hn, hp⟩, _⟩, 0 => by
    refine .inr ⟨v, v', rfl, rfl, hn, ?_⟩
    obtain ⟨n, pl⟩ := v
    obtain ⟨n', pl'⟩ := v'
    cases pl <;> cases pl' <;> first | exact hp.elim | skip
    · exact .inl ⟨rfl, rfl⟩
    · exact .inr ⟨_, _, rfl, rfl, hp⟩
  | _ :: vs, _ :: vs', ⟨_, h⟩, p + 1 => sim_getVariant h p

theorem sim_enumElement {vs vs' : List (OVariant (σ × Bool) α')} (h : SimVariants vs vs') (st : OEnum α') (info : ElemInfo) :
    LikeFault SimOffer (enumElement vs st info) (enumElement vs' st info) := by
  unfold enumElement
  rw [← sim_variantNames h]
  rcases lookup info.name.expanded (enumTable (variantNames vs 0)) with f | found
  · sim_done
  · obtain ⟨b, cell⟩ := st
    simp only
    cases b with
    | true =>
      simp only [if_true]
      rcases cell with _ | ⟨i, payload⟩
      · sim_done
      · simp only
        rcases sim_getVariant h i with ⟨h1, h2⟩ | ⟨v, v', h1, h2, hn, hp⟩
        · rw [h1, h2]; sim_done
        · rw [h1, h2]
          simp only
          by_cases hf : found = some i
          · simp only [if_pos hf]
            rcases hp with ⟨h3, h4⟩ | ⟨impl, impl', h3, h4, hi⟩
            · rw [h3, h4]
              cases payload
              · sim_done
              · sim_done
            · rw [h3, h4]
              cases payload with
              | none => sim_done
              | some p =>
                refine simAct_map (hi.update p info) _ _ ?_
                rintro ⟨v1, r1⟩ ⟨v2, r2⟩ ⟨hv, hr⟩
                cases hv
                exact ⟨rfl, hr⟩
          · simp only [if_neg hf, hn]
            cases found <;> sim_done
    | false =>
      simp only [Bool.false_eq_true, if_false]
      rcases found with _ | i
      · sim_done
      · simp only
        rcases sim_getVariant h i with ⟨h1, h2⟩ | ⟨v, v', h1, h2, hn, hp⟩
        · rw [h1, h2]; sim_done
        · rw [h1, h2]
          simp only
          rcases hp with ⟨h3, h4⟩ | ⟨impl, impl', h3, h4, hi⟩
          · rw [h3, h4]; exact sim_write _ _
          · rw [h3, h4]
            refine simAct_map (hi.init info) _ _ ?_
            rintro (v | e | _) (v' | e' | _) hr <;> cases hr
            · exact sim_write _ _
            all_goals sim_done

theorem enum_sim (ident : String) {vs vs' : List (OVariant (σ × Bool) α')} (h : SimVariants vs vs') : SimRaw (enumRaw ident vs) (enumRaw ident vs') where
  new := rfl
  attr _ _ _ := ⟨rfl, .ok _⟩
  characters _ _ _ := ⟨rfl, .ok _⟩
  elem st info := sim_enumElement h st info
  finalize st d hd := by
    obtain ⟨b, cell⟩ := st
    simp only [enumRaw, enumFinalize]
    cases b with
    | true => sim_done
    | false =>
      revert hd
      rcases d with _ | (v | e | _) <;> intro hd
      · sim_done
      · exact sim_write _ _
      · exact e.elim
      · exact absurd rfl hd
  out := rfl

theorem flag_sim {ρ : Type} {R : ρ → ρ → Prop} {a a' : PAction σ ρ} (h : SimP R a a') : SimAct R (flag a) (flag a') := by
  cases a <;> cases a' <;> first | exact h.elim | skip
  · exact h
  · exact h
  · refine ⟨h.1, fun sub b b' r r' ht => h.2 _ _ _ ?_⟩
    cases b <;> cases b' <;> cases r <;> cases r' <;> first | exact ht | cases ht

theorem unflag_sim {ρ : Type} {R : ρ → ρ → Prop} {a a' : Action (σ × Bool) ρ} (h : SimAct R a a') : SimP R (unflag a) (unflag a') := by
  cases a <;> cases a' <;> first | exact h.elim | skip
  · exact h
  · exact h
  · refine ⟨h.1, fun sub r r' ht => ?_⟩
    rcases r with x | e | _ <;> rcases r' with x' | e' | _ <;> first | cases ht | skip
    all_goals exact h.2 _ _ _ _ _ (by sim_done)

theorem one_sim {β : Type} {D D' : PDeser σ β} (h : ∀ i, SimP Sim (D i) (D' i)) : SimImpl (one D) (one D') where
  init i := flag_sim (h i)
  update _ _ := by sim_done
  missing _ := by sim_done

theorem opt_sim {β : Type} {D D' : PDeser σ β} (h : ∀ i, SimP Sim (D i) (D' i)) : SimImpl (opt D) (opt D') where
  init i := simAct_map (flag_sim (h i)) _ _ fun r r' hr => by
    rcases r with v | e | _ <;> rcases r' with v' | e' | _ <;> cases hr <;> sim_done
  update _ _ := by sim_done
  missing _ := by sim_done

theorem vec_sim {β : Type} {D D' : PDeser σ β} (h : ∀ i, SimP Sim (D i) (D' i)) : SimImpl (vec D) (vec D') where
  init i := simAct_map (flag_sim (h i)) _ _ fun r r' hr => by
    rcases r with v | e | _ <;> rcases r' with v' | e' | _ <;> cases hr <;> sim_done
  update _ i := simAct_map (flag_sim (h i)) _ _ fun r r' hr => by
    rcases r with v | e | _ <;> rcases r' with v' | e' | _ <;> cases hr <;> sim_done
  missing _ := by sim_done

theorem noPanic_sim {ε α : Type} [Stands ε] (e : ε) {r r' : Ret ε α} (h : Sim r r') : Sim r (noPanic e r') := by
  cases h with
  | ok a => exact .ok _
  | err e he => exact .err _ he
  | panic e he => exact .panic _ he

theorem mark_stands : stands (VErr.wrap (.user Mark.msg)) := rfl

theorem markImpl_sim {impl impl' : FieldImpl (σ × Bool) α'} (h : SimImpl impl impl') : SimImpl impl (markImpl impl') where
  init i := by
    have := simAct_map (h.init i) id (noPanic (.wrap (.user Mark.msg))) fun r r' hr => noPanic_sim _ hr
    have hi : ∀ a : Action (σ × Bool) (Ret VErr α'), a.map id = a := fun a => by cases a <;> rfl
    rwa [hi] at this
  update v i := by
    have := simAct_map (R' := SimMut) (h.update v i) id (fun x => (x.1, noPanic (.wrap (.user Mark.msg)) x.2)) fun r r' hr => ⟨hr.1, noPanic_sim _ hr.2⟩
    have hi : ∀ a : Action (σ × Bool) (α' × Ret VErr Unit), a.map id = a := fun a => by cases a <;> rfl
    rwa [hi] at this
  missing n := noPanic_sim _ (h.missing n)

theorem into_sim {β : Type} {impl impl' : FieldImpl (σ × Bool) β} (h : SimImpl impl impl') (inj : β → α') (get : α' → Option β) :
    SimImpl (impl.into inj get) (markImpl (impl'.into inj get)) where
  init i := by
    simp only [markImpl, FieldImpl.into]
    have hi : ∀ a : Action (σ × Bool) (Ret VErr α'), a.map id = a := fun a => by cases a <;> rfl
    rw [← hi ((impl.init i).map _)]
    refine simAct_map (R := Sim) (simAct_map (R' := Sim) (h.init i) _ _ fun r r' hr => ?_) _ _ fun r r' hr => noPanic_sim _ hr
    cases hr <;> sim_done
  update v i := by
    simp only [markImpl, FieldImpl.into]
    cases get v with
    | none => exact ⟨rfl, .panic _ mark_stands⟩
    | some w =>
      have hi : ∀ a : Action (σ × Bool) (α' × Ret VErr Unit), a.map id = a := fun a => by cases a <;> rfl
      simp only
      rw [← hi ((impl.update w i).map fun r => (inj r.1, r.2))]
      have h1 : SimAct SimMut ((impl.update w i).map fun r => (inj r.1, r.2)) ((impl'.update w i).map fun r => (inj r.1, r.2)) :=
        simAct_map (h.update w i) _ _ fun r r' hr => ⟨congrArg inj hr.1, hr.2⟩
      exact simAct_map h1 _ _ fun r r' hr => ⟨hr.1, noPanic_sim _ hr.2⟩
  missing n := by
    have := h.missing n
    simp only [markImpl, FieldImpl.into]
    revert this
    generalize impl.missing n = x
    generalize impl'.missing n = y
    intro hr
    cases hr <;> sim_done

theorem attr_into_sim {β : Type} {impl impl' : AttrImpl β} (h : SimAttr impl impl') (inj : β → α') : SimAttr (impl.into inj) (impl'.into inj) where
  init s := by
    have := h.init s
    simp only [AttrImpl.into]
    revert this
    rcases impl.init s with v | e | _ <;> rcases impl'.init s with v' | e' | _ <;> intro hr <;> cases hr <;> sim_done
  missing n := by
    have := h.missing n
    simp only [AttrImpl.into]
    revert this
    rcases impl.missing n with v | e | _ <;> rcases impl'.missing n with v' | e' | _ <;> intro hr <;> cases hr <;> sim_done

theorem deAttr_sim {β : Type} {parse parse' : String → Ret DErr β} (h : ∀ s, Sim (parse s) (parse' s)) : SimAttr (deAttr parse) (deAttr parse') where
  init s := by
    have := h s
    simp only [deAttr]
    revert this
    rcases parse s with v | e | _ <;> rcases parse' s with v' | e' | _ <;> intro hr <;> cases hr <;> sim_done
  missing _ := by sim_done

theorem deAttrOpt_sim {β : Type} {parse parse' : String → Ret DErr β} (h : ∀ s, Sim (parse s) (parse' s)) : SimAttr (deAttrOpt parse) (deAttrOpt parse') where
  init s := by
    have := h s
    simp only [deAttrOpt]
    revert this
    rcases parse s with v | e | _ <;> rcases parse' s with v' | e' | _ <;> intro hr <;> cases hr <;> sim_done
  missing _ := by sim_done

section
variable {κ : Type} {τ α : κ → Type}

theorem answered_sim {ε : Type} [Stands ε] {junk junk' : States τ × Ret ε Unit} (hj : SimMut junk junk') (k : κ)
    {x y : Except Fault (τ k × Ret ε (Option String))} (h : LikeFault SimMut x y) : SimMut (answered junk k x) (answered junk' k y) := by
  rcases x with f | ⟨t1, r1⟩ <;> rcases y with f' | ⟨t2, r2⟩
  · exact hj
  · exact h.elim
  · exact h.elim
  · obtain ⟨h1, h2⟩ := h
    cases h1
    simp only at h2
    cases h2 <;> sim_done

theorem visitor_sim {raw raw' : (k : κ) → Raw (States τ × Bool) (τ k) (α k)} (h : ∀ k, SimRaw (raw k) (raw' k)) {junk junk' : Junk τ α}
    (hj : SimJunk junk junk') : SimVisitors (visitor raw junk) (visitor raw' junk') where
  attr s n v := answered_sim hj.attr _ ((h s.1).attr s.2 n v)
  chars s v p := answered_sim hj.chars _ ((h s.1).characters s.2 v p)
  elem s i := by
    have := (h s.1).elem s.2 i
    simp only [visitor]
    revert this
    rcases (raw s.1).element s.2 i with f | (t | a) <;> rcases (raw' s.1).element s.2 i with f' | (t' | a') <;> intro ho <;> first | exact ho.elim | skip
    · exact hj.elem
    · cases ho; exact ⟨rfl, .ok _⟩
    · refine unflag_sim (simAct_map ho _ _ ?_)
      rintro (f | ⟨t1, r1⟩) (f' | ⟨t2, r2⟩) hr <;> first | exact hr.elim | skip
      · exact hj.elem
      · obtain ⟨h1, h2⟩ := hr
        cases h1
        exact ⟨rfl, h2⟩

theorem via_sim [DecidableEq κ] {e e' : (k : κ) → Ends (τ k) (α k)} {raw raw' : (k : κ) → Raw (States τ × Bool) (τ k) (α k)}
    (he : ∀ k, ends (raw k) = e k) (he' : ∀ k, ends (raw' k) = e' k) (h : ∀ k, SimRaw (raw k) (raw' k)) {junk junk' : (k : κ) → Ret VErr (α k)}
    (hj : ∀ k, Sim (junk k) (junk' k)) (k : κ) (i : ElemInfo) : SimP Sim (via e junk k i) (via e' junk' k i) := by
  refine ⟨by rw [← he k, ← he' k]; exact congrArg _ (h k).new, fun s r r' hr => ?_⟩
  cases hr with
  | err x hx => exact .err _ hx
  | panic x hx => exact .panic _ hx
  | ok v =>
    simp only
    by_cases hs : s.1 = k
    · obtain ⟨k', t⟩ := s
      cases hs
      simp only [dif_pos, ← he, ← he', conclude, ends]
      have hf := (h k').finalize t none (fun h => by cases h)
      rw [← (h k').out]
      revert hf
      rcases (raw k').finalize t none with f | ⟨t1, r1⟩ <;> rcases (raw' k').finalize t none with f' | ⟨t2, r2⟩ <;> intro hf <;> first | exact hf.elim | skip
      · exact hj _
      · obtain ⟨h1, h2⟩ := hf
        cases h1
        simp only at h2
        cases h2 with
        | ok _ =>
          simp only
          rcases (raw k').out t1 with _ | v
          · exact hj _
          · exact .ok _
        | err x hx => exact .err _ hx
        | panic x hx => exact .panic _ hx
    · simp only [dif_neg hs]
      exact hj _

end

end SX.Open
