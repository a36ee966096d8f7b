import Verif.Proof.Failures

/-
Derived types, and fields of them, differ at most in how they fail if the types of their fields do (C81).
-/
namespace SX.Open
open SX.UnwindDe SX.OpenUnwind Spec.Failures

variable {σ τ' α' : Type}

theorem likeAct_map {ρ ρ' : Type} {R : ρ → ρ → Prop} {R' : ρ' → ρ' → Prop} {a a' : Action (σ × Bool) ρ} (h : LikeAct R a a') (f f' : ρ → ρ')
    (hf : ∀ r r', R r r' → R' (f r) (f' r')) : LikeAct R' (a.map f) (a'.map f') := by
  cases a <;> cases a' <;> first | exact h.elim | skip
  · exact hf _ _ h
  · exact fun x => hf _ _ (h x)
  · exact ⟨h.1, fun sub b b' r r' ht => hf _ _ (h.2 sub b b' r r' ht)⟩

theorem likeFault_rfl {β : Type} {R : β → β → Prop} (hR : ∀ x, R x x) (x : Except Fault β) : LikeFault R x x := by
  cases x
  · exact rfl
  · exact hR _

theorem likeMut_rfl {ε τ α : Type} (x : τ × Ret ε α) : LikeMut x x := ⟨rfl, rfl⟩

theorem like_newCell {f f' : OField (σ × Bool) τ' α'} (h : LikeField f f') : newCell f = newCell f' := by
  obtain ⟨n, k, d⟩ := f
  obtain ⟨n', k', d'⟩ := f'
  obtain ⟨hn, hd, hk⟩ := h
  cases k <;> cases k' <;> first | exact hk.elim | rfl | skip
  simp only [newCell, hk.new]

theorem like_plain {f f' : OField (σ × Bool) τ' α'} (hd : f.default = f'.default) (present : Bool) (cell : Option α') {m m' : Ret VErr α'} (hm : Like m m') :
    LikeFault LikeMut (finalizeCell.plain (τ := τ') f present cell m) (finalizeCell.plain f' present cell m') := by
  simp only [finalizeCell.plain, hd]
  cases present with
  | true => exact ⟨rfl, rfl⟩
  | false =>
    simp only [Bool.false_eq_true, if_false]
    rcases f'.default with _ | (d | e | _)
    · simp only
      rcases m with v | e | _ <;> rcases m' with v' | e' | _ <;> cases hm
      · exact likeFault_rfl likeMut_rfl _
      all_goals exact ⟨rfl, rfl⟩
    all_goals exact likeFault_rfl likeMut_rfl _

theorem like_finalizeCell {f f' : OField (σ × Bool) τ' α'} (h : LikeField f f') (c : OCell τ' α') :
    LikeFault LikeMut (finalizeCell f c) (finalizeCell f' c) := by
  obtain ⟨n, k, d⟩ := f
  obtain ⟨n', k', d'⟩ := f'
  obtain ⟨h1, h2, hk⟩ := h
  simp only at h1 h2 hk
  subst h1 h2
  cases k <;> cases k' <;> first | exact hk.elim | skip
  · cases c
    · exact like_plain rfl _ _ (hk.missing _)
    · exact rfl
  · cases c
    · exact like_plain rfl _ _ (hk.missing _)
    · exact rfl
  · cases c with
    | plain _ _ => exact rfl
    | flat t =>
      rename_i raw raw'
      have := hk.finalize t d
      simp only [finalizeCell]
      revert this
      rcases raw.finalize t d with f | ⟨t1, r1⟩ <;> rcases raw'.finalize t d with f' | ⟨t2, r2⟩ <;> intro h
      · exact h
      · exact h.elim
      · exact h.elim
      · exact ⟨congrArg OCell.flat h.1, h.2⟩

theorem like_cellOut {f f' : OField (σ × Bool) τ' α'} (h : LikeField f f') (c : OCell τ' α') : cellOut f c = cellOut f' c := by
  obtain ⟨n, k, d⟩ := f
  obtain ⟨n', k', d'⟩ := f'
  obtain ⟨hn, hd, hk⟩ := h
  cases k <;> cases k' <;> first | exact hk.elim | skip
  · cases c <;> rfl
  · cases c <;> rfl
  · cases c
    · rfl
    · simp only [cellOut, hk.out]

theorem like_elemNames : ∀ {fs fs' : List (OField (σ × Bool) τ' α')}, LikeFields fs fs' → ∀ p, elemNames fs p = elemNames fs' p
  | [], [], _, _ => rfl
  | ⟨n, k, d⟩ :: fs, ⟨n', k', d'⟩ :: fs', ⟨⟨h1, _, hk⟩, h⟩, p => by
    cases k <;> cases k' <;> first | exact hk.elim | skip
    all_goals simp only [elemNames, like_elemNames h]
    cases h1; rfl

theorem like_attrNames : ∀ {fs fs' : List (OField (σ × Bool) τ' α')}, LikeFields fs fs' → ∀ p, attrNames fs p = attrNames fs' p
  | [], [], _, _ => rfl
  | ⟨n, k, d⟩ :: fs, ⟨n', k', d'⟩ :: fs', ⟨⟨h1, _, hk⟩, h⟩, p => by
    cases k <;> cases k' <;> first | exact hk.elim | skip
    all_goals simp only [attrNames, like_attrNames h]
    cases h1; rfl

theorem like_flatPos : ∀ {fs fs' : List (OField (σ × Bool) τ' α')}, LikeFields fs fs' → ∀ p, flatPos fs p = flatPos fs' p
  | [], [], _, _ => rfl
  | ⟨n, k, d⟩ :: fs, ⟨n', k', d'⟩ :: fs', ⟨⟨h1, _, hk⟩, h⟩, p => by
    cases k <;> cases k' <;> first | exact hk.elim | skip
    all_goals simp only [flatPos, like_flatPos h]

theorem like_get : ∀ {fs fs' : List (OField (σ × Bool) τ' α')}, LikeFields fs fs' → ∀ p : Nat,
    fs[p]? = none ∧ fs'[p]? = none ∨ ∃ f f', fs[p]? = some f ∧ fs'[p]? = some f' ∧ LikeField f f'
  | [], [], _, _ => .inl ⟨rfl, rfl⟩
  | f :: _, f' :: _, ⟨hf, _⟩, 0 => .inr ⟨f, f', rfl, rfl, hf⟩
  | _ :: fs, _ :: fs', ⟨_, h⟩, p + 1 => like_get h p

theorem like_newCells : ∀ {fs fs' : List (OField (σ × Bool) τ' α')}, LikeFields fs fs' → fs.map newCell = fs'.map newCell
  | [], [], _ => rfl
  | f :: fs, f' :: fs', ⟨hf, h⟩ => by simp only [List.map_cons, like_newCell hf, like_newCells h]

theorem like_finalizeCells : ∀ {fs fs' : List (OField (σ × Bool) τ' α')}, LikeFields fs fs' → ∀ cs,
    LikeFault LikeMut (finalizeCells fs cs) (finalizeCells fs' cs)
  | [], [], _, _ => ⟨rfl, rfl⟩
  | _ :: _, _ :: _, _, [] => rfl
  | f :: fs, f' :: fs', ⟨hf, h⟩, c :: cs => by
    have h1 := like_finalizeCell hf c
    simp only [finalizeCells]
    revert h1
    rcases finalizeCell f c with x | ⟨c1, r1⟩ <;> rcases finalizeCell f' c with x' | ⟨c2, r2⟩ <;> intro h1
    · exact h1
    · exact h1.elim
    · exact h1.elim
    · obtain ⟨h2, h3⟩ := h1
      cases h2
      rcases r1 with _ | e | _ <;> rcases r2 with _ | e' | _ <;> first | cases h3 | skip
      · have h4 := like_finalizeCells h cs
        simp only
        revert h4
        rcases finalizeCells fs cs with x | ⟨cs1, r1⟩ <;> rcases finalizeCells fs' cs with x' | ⟨cs2, r2⟩ <;> intro h4
        · exact h4
        · exact h4.elim
        · exact h4.elim
        · exact ⟨congrArg (List.cons c1) h4.1, h4.2⟩
      all_goals exact ⟨rfl, rfl⟩

theorem like_structOut : ∀ {fs fs' : List (OField (σ × Bool) τ' α')}, LikeFields fs fs' → ∀ cs, structOut fs cs = structOut fs' cs
  | [], [], _, _ => rfl
  | _ :: _, _ :: _, _, [] => rfl
  | f :: fs, f' :: fs', ⟨hf, h⟩, c :: cs => by simp only [structOut, like_cellOut hf, like_structOut h]

theorem like_delegateAttribute {fs fs' : List (OField (σ × Bool) τ' α')} (h : LikeFields fs fs') (n : EName) (ps : List Nat) (cs : List (OCell τ' α'))
    (v : String) : LikeFault LikeMut (delegateAttribute fs n ps cs v) (delegateAttribute fs' n ps cs v) := by
  induction ps generalizing cs v with
  | nil => exact ⟨rfl, rfl⟩
  | cons p ps ih =>
    simp only [delegateAttribute]
    rcases like_get h p with ⟨h1, h2⟩ | ⟨⟨n1, k1, d1⟩, ⟨n2, k2, d2⟩, h1, h2, _, _, hk⟩
    · rw [h1, h2]; exact rfl
    · rw [h1, h2]
      cases k1 <;> cases k2 <;> first | exact hk.elim | exact rfl | skip
      rename_i raw raw' _ _
      rcases cs[p]? with _ | (_ | t)
      · exact rfl
      · exact rfl
      · have h3 := hk.attr t n v
        simp only
        revert h3
        rcases raw.attr t n v with x | ⟨t1, (_ | s1) | e | _⟩ <;> rcases raw'.attr t n v with x' | ⟨t2, (_ | s2) | e' | _⟩ <;>
          intro h3 <;> first | exact h3.elim | exact h3 | (obtain ⟨h4, h5⟩ := h3; cases h4; cases h5; skip)
        all_goals first | exact ih _ _ | exact ⟨rfl, rfl⟩

theorem like_delegateCharacters {fs fs' : List (OField (σ × Bool) τ' α')} (h : LikeFields fs fs') (pos : Pos) (ps : List Nat)
    (cs : List (OCell τ' α')) (v : String) : LikeFault LikeMut (delegateCharacters fs pos ps cs v) (delegateCharacters fs' pos ps cs v) := by
  induction ps generalizing cs v with
  | nil => exact ⟨rfl, rfl⟩
  | cons p ps ih =>
    simp only [delegateCharacters]
    rcases like_get h p with ⟨h1, h2⟩ | ⟨⟨n1, k1, d1⟩, ⟨n2, k2, d2⟩, h1, h2, _, _, hk⟩
    · rw [h1, h2]; exact rfl
    · rw [h1, h2]
      cases k1 <;> cases k2 <;> first | exact hk.elim | exact rfl | skip
      rename_i raw raw' _ _
      rcases cs[p]? with _ | (_ | t)
      · exact rfl
      · exact rfl
      · have h3 := hk.characters t v pos
        simp only
        revert h3
        rcases raw.characters t v pos with x | ⟨t1, (_ | s1) | e | _⟩ <;> rcases raw'.characters t v pos with x' | ⟨t2, (_ | s2) | e' | _⟩ <;>
          intro h3 <;> first | exact h3.elim | exact h3 | (obtain ⟨h4, h5⟩ := h3; cases h4; cases h5; skip)
        all_goals first | exact ih _ _ | exact ⟨rfl, rfl⟩

theorem likeFault_state {τ τ'' ε γ : Type} {x y : Except Fault (τ × Ret ε γ)} (h : LikeFault LikeMut x y) (g : τ → τ'') :
    LikeFault LikeMut (x.map fun x => (g x.1, x.2)) (y.map fun x => (g x.1, x.2)) := by
  rcases x with f | ⟨t1, r1⟩ <;> rcases y with f' | ⟨t2, r2⟩
  · exact h
  · exact h.elim
  · exact h.elim
  · exact ⟨congrArg g h.1, h.2⟩

theorem like_delegateElement {fs fs' : List (OField (σ × Bool) τ' α')} (h : LikeFields fs fs') (info : ElemInfo) (ps : List Nat)
    (cs : List (OCell τ' α')) : LikeFault LikeOffer (delegateElement fs info ps cs) (delegateElement fs' info ps cs) := by
  induction ps generalizing cs with
  | nil => exact rfl
  | cons p ps ih =>
    simp only [delegateElement]
    rcases like_get h p with ⟨h1, h2⟩ | ⟨⟨n1, k1, d1⟩, ⟨n2, k2, d2⟩, h1, h2, hn, hd, hk⟩
    · rw [h1, h2]; exact rfl
    · rw [h1, h2]
      clear h1 h2 hn hd
      cases k1 <;> cases k2 <;> first | exact hk.elim | exact rfl | skip
      rename_i raw raw'
      rcases cs[p]? with _ | (_ | t)
      · exact rfl
      · exact rfl
      · simp only
        have ho := hk.elem t info
        revert ho
        rcases raw.element t info with f | (t1 | a) <;> rcases raw'.element t info with f' | (t1' | a') <;> intro ho <;> first | exact ho.elim | skip
        · exact ho
        · cases ho; exact ih _
        · exact likeAct_map ho _ _ fun r r' hr => likeFault_state hr fun t => cs.set p (.flat t)

theorem like_structElement {fs fs' : List (OField (σ × Bool) τ' α')} (h : LikeFields fs fs') (cs : List (OCell τ' α')) (info : ElemInfo) :
    LikeFault LikeOffer (structElement fs cs info) (structElement fs' cs info) := by
  unfold structElement
  rw [← like_elemNames h, ← like_flatPos h]
  rcases lookup info.name.expanded (structTable (elemNames fs 0)) with f | _ | p
  · exact rfl
  · exact like_delegateElement h info _ cs
  · simp only
    rcases like_get h p with ⟨h1, h2⟩ | ⟨⟨n1, k1, d1⟩, ⟨n2, k2, d2⟩, h1, h2, _, _, hk⟩
    · rw [h1, h2]; exact rfl
    · rw [h1, h2]
      cases k1 <;> cases k2 <;> first | exact hk.elim | exact rfl | skip
      rcases cs[p]? with _ | (⟨present, cell⟩ | t)
      · exact rfl
      · simp only
        cases present with
        | true =>
          cases cell with
          | none => exact rfl
          | some v =>
            refine likeAct_map (hk.update v info) _ _ ?_
            rintro ⟨v1, r1⟩ ⟨v2, r2⟩ ⟨hv, hr⟩
            cases hv
            exact ⟨rfl, hr⟩
        | false =>
          refine likeAct_map (hk.init info) _ _ ?_
          rintro (v | e | _) (v' | e' | _) hr <;> cases hr
          · exact likeFault_rfl likeMut_rfl _
          all_goals exact ⟨rfl, rfl⟩
      · exact rfl

theorem like_structAttribute {fs fs' : List (OField (σ × Bool) τ' α')} (h : LikeFields fs fs') (cs : List (OCell τ' α')) (n : EName) (v : String) :
    LikeFault LikeMut (structAttribute fs cs n v) (structAttribute fs' cs n v) := by
  unfold structAttribute
  rw [← like_attrNames h, ← like_flatPos h]
  rcases lookup n (structTable (attrNames fs 0)) with f | _ | p
  · exact rfl
  · exact like_delegateAttribute h n _ cs v
  · simp only
    rcases like_get h p with ⟨h1, h2⟩ | ⟨⟨n1, k1, d1⟩, ⟨n2, k2, d2⟩, h1, h2, _, _, hk⟩
    · rw [h1, h2]; exact rfl
    · rw [h1, h2]
      clear h1 h2
      cases k1 <;> cases k2 <;> first | exact hk.elim | exact rfl | skip
      rename_i impl impl' _ _
      rcases cs[p]? with _ | (⟨present, cell⟩ | t)
      · exact rfl
      · simp only
        cases present with
        | true => exact ⟨rfl, rfl⟩
        | false =>
          have hi := hk.init v
          simp only [Bool.false_eq_true, if_false]
          revert hi
          rcases impl.init v with w | e | _ <;> rcases impl'.init v with w' | e' | _ <;> intro hi <;> cases hi
          · exact likeFault_rfl likeMut_rfl _
          all_goals exact ⟨rfl, rfl⟩
      · exact rfl

theorem struct_like {fs fs' : List (OField (σ × Bool) τ' α')} (h : LikeFields fs fs') : LikeRaw (structRaw fs) (structRaw fs') where
  new := like_newCells h
  attr cs n v := like_structAttribute h cs n v
  characters cs s pos := by
    simp only [structRaw, ← like_flatPos h]
    exact like_delegateCharacters h pos _ cs s
  elem cs info := like_structElement h cs info
  finalize cs _ := like_finalizeCells h cs
  out := funext fun cs => like_structOut h cs

theorem like_variantNames : ∀ {vs vs' : List (OVariant (σ × Bool) α')}, LikeVariants vs vs' → ∀ p, variantNames vs p = variantNames vs' p
  | [], [], _, _ => rfl
  | v :: vs, v' :: vs', ⟨⟨h1, _⟩, h⟩, p => by simp only [variantNames, h1, like_variantNames h]

theorem like_getVariant : ∀ {vs vs' : List (OVariant (σ × Bool) α')}, LikeVariants vs vs' → ∀ p : Nat,
    vs[p]? = none ∧ vs'[p]? = none ∨ ∃ v v', vs[p]? = some v ∧ vs'[p]? = some v' ∧ v.name = v'.name ∧
      (v.payload = none ∧ v'.payload = none ∨ ∃ impl impl', v.payload = some impl ∧ v'.payload = some impl' ∧ LikeImpl impl impl')
  | [], [], _, _ => .inl ⟨rfl, rfl⟩
  | v :: _, v' :: _, ⟨⟨hn, hp⟩, _⟩, 0 => by
    refine .inr ⟨v, v', rfl, rfl, hn, ?_⟩
    obtain ⟨n, pl⟩ := v
    obtain ⟨n', pl'⟩ := v'
    cases pl <;> cases pl' <;> first | exact hp.elim | skip
    · exact .inl ⟨rfl, rfl⟩
    · exact .inr ⟨_, _, rfl, rfl, hp⟩
  | _ :: vs, _ :: vs', ⟨_, h⟩, p + 1 => like_getVariant h p

theorem like_enumElement {vs vs' : List (OVariant (σ × Bool) α')} (h : LikeVariants vs vs') (st : OEnum α') (info : ElemInfo) :
    LikeFault LikeOffer (enumElement vs st info) (enumElement vs' st info) := by
  unfold enumElement
  rw [← like_variantNames h]
  rcases lookup info.name.expanded (enumTable (variantNames vs 0)) with f | found
  · exact rfl
  · obtain ⟨b, cell⟩ := st
    simp only
    cases b with
    | true =>
      simp only [if_true]
      rcases cell with _ | ⟨i, payload⟩
      · exact rfl
      · simp only
        rcases like_getVariant h i with ⟨h1, h2⟩ | ⟨v, v', h1, h2, hn, hp⟩
        · rw [h1, h2]; exact rfl
        · rw [h1, h2]
          simp only
          by_cases hf : found = some i
          · simp only [if_pos hf]
            rcases hp with ⟨h3, h4⟩ | ⟨impl, impl', h3, h4, hi⟩
            · rw [h3, h4]
              cases payload
              · exact ⟨rfl, rfl⟩
              · exact rfl
            · rw [h3, h4]
              cases payload with
              | none => exact rfl
              | some p =>
                refine likeAct_map (hi.update p info) _ _ ?_
                rintro ⟨v1, r1⟩ ⟨v2, r2⟩ ⟨hv, hr⟩
                cases hv
                exact ⟨rfl, hr⟩
          · simp only [if_neg hf, hn]
            cases found <;> exact ⟨rfl, rfl⟩
    | false =>
      simp only [Bool.false_eq_true, if_false]
      rcases found with _ | i
      · exact rfl
      · simp only
        rcases like_getVariant h i with ⟨h1, h2⟩ | ⟨v, v', h1, h2, hn, hp⟩
        · rw [h1, h2]; exact rfl
        · rw [h1, h2]
          simp only
          rcases hp with ⟨h3, h4⟩ | ⟨impl, impl', h3, h4, hi⟩
          · rw [h3, h4]; exact likeFault_rfl likeMut_rfl _
          · rw [h3, h4]
            refine likeAct_map (hi.init info) _ _ ?_
            rintro (v | e | _) (v' | e' | _) hr <;> cases hr
            · exact likeFault_rfl likeMut_rfl _
            all_goals exact ⟨rfl, rfl⟩

theorem enum_like (ident : String) {vs vs' : List (OVariant (σ × Bool) α')} (h : LikeVariants vs vs') : LikeRaw (enumRaw ident vs) (enumRaw ident vs') where
  new := rfl
  attr _ _ _ := ⟨rfl, rfl⟩
  characters _ _ _ := ⟨rfl, rfl⟩
  elem st info := like_enumElement h st info
  finalize _ _ := likeFault_rfl likeMut_rfl _
  out := rfl

theorem flag_like {ρ : Type} {R : ρ → ρ → Prop} {a a' : PAction σ ρ} (h : LikeP R a a') : LikeAct R (flag a) (flag a') := by
  cases a <;> cases a' <;> first | exact h.elim | skip
  · exact h
  · exact h
  · refine ⟨h.1, fun sub b b' r r' ht => h.2 _ _ _ ?_⟩
    cases b <;> cases b' <;> cases r <;> cases r' <;> first | exact ht | cases ht

theorem unflag_like {ρ : Type} {R : ρ → ρ → Prop} {a a' : Action (σ × Bool) ρ} (h : LikeAct R a a') : LikeP R (unflag a) (unflag a') := by
  cases a <;> cases a' <;> first | exact h.elim | skip
  · exact h
  · exact h
  · refine ⟨h.1, fun sub r r' ht => ?_⟩
    rcases r with x | e | _ <;> rcases r' with x' | e' | _ <;> first | cases ht | skip
    all_goals exact h.2 _ _ _ _ _ rfl

theorem one_like {β : Type} {D D' : PDeser σ β} (h : ∀ i, LikeP Like (D i) (D' i)) : LikeImpl (one D) (one D') where
  init i := flag_like (h i)
  update _ _ := ⟨rfl, rfl⟩
  missing _ := rfl

theorem opt_like {β : Type} {D D' : PDeser σ β} (h : ∀ i, LikeP Like (D i) (D' i)) : LikeImpl (opt D) (opt D') where
  init i := likeAct_map (flag_like (h i)) _ _ fun r r' hr => by
    rcases r with v | e | _ <;> rcases r' with v' | e' | _ <;> cases hr <;> exact rfl
  update _ _ := ⟨rfl, rfl⟩
  missing _ := rfl

theorem vec_like {β : Type} {D D' : PDeser σ β} (h : ∀ i, LikeP Like (D i) (D' i)) : LikeImpl (vec D) (vec D') where
  init i := likeAct_map (flag_like (h i)) _ _ fun r r' hr => by
    rcases r with v | e | _ <;> rcases r' with v' | e' | _ <;> cases hr <;> exact rfl
  update _ i := likeAct_map (flag_like (h i)) _ _ fun r r' hr => by
    rcases r with v | e | _ <;> rcases r' with v' | e' | _ <;> cases hr <;> exact ⟨rfl, rfl⟩
  missing _ := rfl

theorem into_like {β : Type} {impl impl' : FieldImpl (σ × Bool) β} (h : LikeImpl impl impl') (inj : β → α') (get : α' → Option β) :
    LikeImpl (impl.into inj get) (impl'.into inj get) where
  init i := likeAct_map (h.init i) _ _ fun r r' hr => by
    rcases r with v | e | _ <;> rcases r' with v' | e' | _ <;> cases hr <;> exact rfl
  update v i := by
    simp only [FieldImpl.into]
    cases get v with
    | none => exact ⟨rfl, rfl⟩
    | some w => exact likeAct_map (h.update w i) _ _ fun r r' hr => ⟨congrArg inj hr.1, hr.2⟩
  missing n := by
    have := h.missing n
    simp only [FieldImpl.into]
    revert this
    rcases impl.missing n with v | e | _ <;> rcases impl'.missing n with v' | e' | _ <;> intro hr <;> cases hr <;> exact rfl

theorem attr_into_like {β : Type} {impl impl' : AttrImpl β} (h : LikeAttr impl impl') (inj : β → α') : LikeAttr (impl.into inj) (impl'.into inj) where
  init s := by
    have := h.init s
    simp only [AttrImpl.into]
    revert this
    rcases impl.init s with v | e | _ <;> rcases impl'.init s with v' | e' | _ <;> intro hr <;> cases hr <;> exact rfl
  missing n := by
    have := h.missing n
    simp only [AttrImpl.into]
    revert this
    rcases impl.missing n with v | e | _ <;> rcases impl'.missing n with v' | e' | _ <;> intro hr <;> cases hr <;> exact rfl

theorem deAttr_like {β : Type} {parse parse' : String → Ret DErr β} (h : ∀ s, Like (parse s) (parse' s)) : LikeAttr (deAttr parse) (deAttr parse') where
  init s := by
    have := h s
    simp only [deAttr]
    revert this
    rcases parse s with v | e | _ <;> rcases parse' s with v' | e' | _ <;> intro hr <;> cases hr <;> exact rfl
  missing _ := rfl

theorem deAttrOpt_like {β : Type} {parse parse' : String → Ret DErr β} (h : ∀ s, Like (parse s) (parse' s)) : LikeAttr (deAttrOpt parse) (deAttrOpt parse') where
  init s := by
    have := h s
    simp only [deAttrOpt]
    revert this
    rcases parse s with v | e | _ <;> rcases parse' s with v' | e' | _ <;> intro hr <;> cases hr <;> exact rfl
  missing _ := rfl

section
variable {κ : Type} {τ α : κ → Type}

theorem answered_like {ε : Type} (junk : States τ × Ret ε Unit) (k : κ) {x y : Except Fault (τ k × Ret ε (Option String))} (h : LikeFault LikeMut x y) :
    LikeMut (answered junk k x) (answered junk k y) := by
  rcases x with f | ⟨t1, r1⟩ <;> rcases y with f' | ⟨t2, r2⟩
  · exact ⟨rfl, rfl⟩
  · exact h.elim
  · exact h.elim
  · obtain ⟨h1, h2⟩ := h
    cases h1
    rcases r1 with v | e | _ <;> rcases r2 with v' | e' | _ <;> cases h2 <;> exact ⟨rfl, rfl⟩

theorem visitor_like {raw raw' : (k : κ) → Raw (States τ × Bool) (τ k) (α k)} (h : ∀ k, LikeRaw (raw k) (raw' k)) (junk : Junk τ α) :
    LikeVisitors (visitor raw junk) (visitor raw' junk) where
  attr s n v := answered_like _ _ ((h s.1).attr s.2 n v)
  chars s v p := answered_like _ _ ((h s.1).characters s.2 v p)
  elem s i := by
    have := (h s.1).elem s.2 i
    simp only [visitor]
    revert this
    rcases (raw s.1).element s.2 i with f | (t | a) <;> rcases (raw' s.1).element s.2 i with f' | (t' | a') <;> intro ho <;> first | exact ho.elim | skip
    · exact ⟨rfl, rfl⟩
    · cases ho; exact ⟨rfl, rfl⟩
    · refine unflag_like (likeAct_map ho _ _ ?_)
      rintro (f | ⟨t1, r1⟩) (f' | ⟨t2, r2⟩) hr <;> first | exact hr.elim | skip
      · exact ⟨rfl, rfl⟩
      · obtain ⟨h1, h2⟩ := hr
        cases h1
        exact ⟨rfl, h2⟩

theorem via_like [DecidableEq κ] {e e' : (k : κ) → Ends (τ k) (α k)} {raw raw' : (k : κ) → Raw (States τ × Bool) (τ k) (α k)}
    (he : ∀ k, ends (raw k) = e k) (he' : ∀ k, ends (raw' k) = e' k) (h : ∀ k, LikeRaw (raw k) (raw' k)) (junk : (k : κ) → Ret VErr (α k)) (k : κ)
    (i : ElemInfo) : LikeP Like (via e junk k i) (via e' junk k i) := by
  refine ⟨by rw [← he k, ← he' k]; exact congrArg _ (h k).new, fun s r r' hr => ?_⟩
  rcases r with v | x | _ <;> rcases r' with v' | x' | _ <;> first | cases hr | skip
  · simp only
    by_cases hs : s.1 = k
    · obtain ⟨k', t⟩ := s
      cases hs
      simp only [dif_pos, ← he, ← he', conclude, ends]
      have hf := (h k').finalize t none
      rw [← (h k').out]
      revert hf
      rcases (raw k').finalize t none with f | ⟨t1, r1⟩ <;> rcases (raw' k').finalize t none with f' | ⟨t2, r2⟩ <;> intro hf <;> first | exact hf.elim | skip
      · exact rfl
      · obtain ⟨h1, h2⟩ := hf
        cases h1
        rcases r1 with ⟨⟩ | e | _ <;> rcases r2 with ⟨⟩ | e' | _ <;> first | cases h2 | skip
        all_goals exact rfl
    · simp only [dif_neg hs]
      exact rfl
  all_goals exact rfl

end

end SX.Open
