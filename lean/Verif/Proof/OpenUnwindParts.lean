import Verif.Proof.OpenUnwind

/-
The generated visitors, and the crate's implementations for `T`, `Option<T>` and `Vec<T>`, do the same if the types of fields do (C80).
-/
namespace SX.Open
open SX.OpenUnwind SX.UnwindDe Spec.OpenUnwind Spec.Open

variable {κ : Type} {τ : κ → Type} {τ' α' : Type} {I : κ → States τ → Prop}

theorem alike_map {ρ ρ' : Type} {a a' : Action (States τ × Bool) ρ} (h : Alike I a a') (f : ρ → ρ') : Alike I (a.map f) (a'.map f) := by
  cases a <;> cases a' <;> first | exact h.elim | skip
  · exact congrArg f h
  · exact fun x => congrArg f (h x)
  · obtain ⟨h1, kind, h2, h3⟩ := h
    exact ⟨h1, kind, h2, fun sub r hs => congrArg f (h3 sub r hs)⟩

section
variable {raw raw' : Raw (States τ × Bool) τ' α'} (h : AlikeRaw I raw raw')
include h
theorem alike_new : raw.new = raw'.new := congrArg Ends.new h.ends
theorem alike_finalize : raw.finalize = raw'.finalize := congrArg Ends.finalize h.ends
theorem alike_out : raw.out = raw'.out := congrArg Ends.out h.ends
end

theorem alike_newCell {f f' : OField (States τ × Bool) τ' α'} (h : AlikeField I f f') : newCell f = newCell f' := by
  obtain ⟨n, k, d⟩ := f
  obtain ⟨n', k', d'⟩ := f'
  obtain ⟨hn, hd, hk⟩ := h
  cases k <;> cases k' <;> first | exact hk.elim | rfl | skip
  simp only [newCell, alike_new hk]

theorem alike_finalizeCell {f f' : OField (States τ × Bool) τ' α'} (h : AlikeField I f f') (c : OCell τ' α') : finalizeCell f c = finalizeCell f' c := by
  obtain ⟨n, k, d⟩ := f
  obtain ⟨n', k', d'⟩ := f'
  obtain ⟨h1, h2, hk⟩ := h
  simp only at h1 h2 hk
  subst h1 h2
  cases k <;> cases k' <;> first | exact hk.elim | skip
  · cases c
    · simp only [finalizeCell, hk.missing]
      rfl
    · rfl
  · cases hk; rfl
  · cases c
    · rfl
    · simp only [finalizeCell, alike_finalize hk]

theorem alike_cellOut {f f' : OField (States τ × Bool) τ' α'} (h : AlikeField I f f') (c : OCell τ' α') : cellOut f c = cellOut f' c := by
  obtain ⟨n, k, d⟩ := f
  obtain ⟨n', k', d'⟩ := f'
  obtain ⟨hn, hd, hk⟩ := h
  cases k <;> cases k' <;> first | exact hk.elim | skip
  · cases c <;> rfl
  · cases c <;> rfl
  · cases c
    · rfl
    · simp only [cellOut, alike_out hk]

theorem alike_elemNames : ∀ {fs fs' : List (OField (States τ × Bool) τ' α')}, AlikeFields I fs fs' → ∀ p, elemNames fs p = elemNames fs' p
  | [], [], _, _ => rfl
  | ⟨n, k, d⟩ :: fs, ⟨n', k', d'⟩ :: fs', ⟨⟨h1, _, hk⟩, h⟩, p => by
    cases k <;> cases k' <;> first | exact hk.elim | skip
    all_goals simp only [elemNames, alike_elemNames h]
    cases h1; rfl

theorem alike_attrNames : ∀ {fs fs' : List (OField (States τ × Bool) τ' α')}, AlikeFields I fs fs' → ∀ p, attrNames fs p = attrNames fs' p
  | [], [], _, _ => rfl
  | ⟨n, k, d⟩ :: fs, ⟨n', k', d'⟩ :: fs', ⟨⟨h1, _, hk⟩, h⟩, p => by
    cases k <;> cases k' <;> first | exact hk.elim | skip
    all_goals simp only [attrNames, alike_attrNames h]
    cases h1; rfl

theorem alike_flatPos : ∀ {fs fs' : List (OField (States τ × Bool) τ' α')}, AlikeFields I fs fs' → ∀ p, flatPos fs p = flatPos fs' p
  | [], [], _, _ => rfl
  | ⟨n, k, d⟩ :: fs, ⟨n', k', d'⟩ :: fs', ⟨⟨h1, _, hk⟩, h⟩, p => by
    cases k <;> cases k' <;> first | exact hk.elim | skip
    all_goals simp only [flatPos, alike_flatPos h]

theorem alike_get : ∀ {fs fs' : List (OField (States τ × Bool) τ' α')}, AlikeFields I fs fs' → ∀ p : Nat,
    fs[p]? = none ∧ fs'[p]? = none ∨ ∃ f f', fs[p]? = some f ∧ fs'[p]? = some f' ∧ AlikeField I f f'
  | [], [], _, _ => .inl ⟨rfl, rfl⟩
  | f :: _, f' :: _, ⟨hf, _⟩, 0 => .inr ⟨f, f', rfl, rfl, hf⟩
  | _ :: fs, _ :: fs', ⟨_, h⟩, p + 1 => alike_get h p

theorem alike_newCells : ∀ {fs fs' : List (OField (States τ × Bool) τ' α')}, AlikeFields I fs fs' → fs.map newCell = fs'.map newCell
  | [], [], _ => rfl
  | f :: fs, f' :: fs', ⟨hf, h⟩ => by simp only [List.map_cons, alike_newCell hf, alike_newCells h]

theorem alike_finalizeCells : ∀ {fs fs' : List (OField (States τ × Bool) τ' α')}, AlikeFields I fs fs' → ∀ cs, finalizeCells fs cs = finalizeCells fs' cs
  | [], [], _, _ => rfl
  | _ :: _, _ :: _, _, [] => rfl
  | f :: fs, f' :: fs', ⟨hf, h⟩, c :: cs => by simp only [finalizeCells, alike_finalizeCell hf, alike_finalizeCells h]

theorem alike_structOut : ∀ {fs fs' : List (OField (States τ × Bool) τ' α')}, AlikeFields I fs fs' → ∀ cs, structOut fs cs = structOut fs' cs
  | [], [], _, _ => rfl
  | _ :: _, _ :: _, _, [] => rfl
  | f :: fs, f' :: fs', ⟨hf, h⟩, c :: cs => by simp only [structOut, alike_cellOut hf, alike_structOut h]

theorem alike_delegateAttribute {fs fs' : List (OField (States τ × Bool) τ' α')} (h : AlikeFields I fs fs') (n : EName) (ps : List Nat) (cs : List (OCell τ' α'))
    (v : String) : delegateAttribute fs n ps cs v = delegateAttribute fs' n ps cs v := by
  induction ps generalizing cs v with
  | nil => rfl
  | cons p ps ih =>
    simp only [delegateAttribute]
    rcases alike_get h p with ⟨h1, h2⟩ | ⟨⟨n1, k1, d1⟩, ⟨n2, k2, d2⟩, h1, h2, _, _, hk⟩
    · rw [h1, h2]
    · rw [h1, h2]
      cases k1 <;> cases k2 <;> first | exact hk.elim | rfl | skip
      rcases cs[p]? with _ | (_ | t)
      · rfl
      · rfl
      · simp only [hk.attr, ih]

theorem alike_delegateCharacters {fs fs' : List (OField (States τ × Bool) τ' α')} (h : AlikeFields I fs fs') (pos : Pos) (ps : List Nat)
    (cs : List (OCell τ' α')) (v : String) : delegateCharacters fs pos ps cs v = delegateCharacters fs' pos ps cs v := by
  induction ps generalizing cs v with
  | nil => rfl
  | cons p ps ih =>
    simp only [delegateCharacters]
    rcases alike_get h p with ⟨h1, h2⟩ | ⟨⟨n1, k1, d1⟩, ⟨n2, k2, d2⟩, h1, h2, _, _, hk⟩
    · rw [h1, h2]
    · rw [h1, h2]
      cases k1 <;> cases k2 <;> first | exact hk.elim | rfl | skip
      rcases cs[p]? with _ | (_ | t)
      · rfl
      · rfl
      · simp only [hk.characters, ih]

theorem alike_delegateElement {fs fs' : List (OField (States τ × Bool) τ' α')} (h : AlikeFields I fs fs') (info : ElemInfo) (ps : List Nat)
    (cs : List (OCell τ' α')) : AlikeOffer I (delegateElement fs info ps cs) (delegateElement fs' info ps cs) := by
  induction ps generalizing cs with
  | nil => exact rfl
  | cons p ps ih =>
    simp only [delegateElement]
    rcases alike_get h p with ⟨h1, h2⟩ | ⟨⟨n1, k1, d1⟩, ⟨n2, k2, d2⟩, h1, h2, hn, hd, hk⟩
    · rw [h1, h2]; exact rfl
    · rw [h1, h2]
      clear h1 h2 hn hd
      cases k1 <;> cases k2 <;> first | exact hk.elim | exact rfl | skip
      rename_i raw raw'
      rcases cs[p]? with _ | (_ | t)
      · exact rfl
      · exact rfl
      · simp only
        have ho := hk.elem t info
        revert ho
        rcases raw.element t info with f | (t1 | a) <;> rcases raw'.element t info with f' | (t1' | a') <;> intro ho <;> first | exact ho.elim | skip
        · exact ho
        · cases ho; exact ih _
        · exact alike_map ho _

theorem alike_structElement {fs fs' : List (OField (States τ × Bool) τ' α')} (h : AlikeFields I fs fs') (cs : List (OCell τ' α')) (info : ElemInfo) :
    AlikeOffer I (structElement fs cs info) (structElement fs' cs info) := by
  unfold structElement
  rw [← alike_elemNames h, ← alike_flatPos h]
  rcases lookup info.name.expanded (structTable (elemNames fs 0)) with f | _ | p
  · exact rfl
  · exact alike_delegateElement h info _ cs
  · simp only
    rcases alike_get h p with ⟨h1, h2⟩ | ⟨⟨n1, k1, d1⟩, ⟨n2, k2, d2⟩, h1, h2, _, _, hk⟩
    · rw [h1, h2]; exact rfl
    · rw [h1, h2]
      cases k1 <;> cases k2 <;> first | exact hk.elim | exact rfl | skip
      rcases cs[p]? with _ | (⟨present, cell⟩ | t)
      · exact rfl
      · simp only
        cases present with
        | true =>
          cases cell with
          | none => exact rfl
          | some v => exact alike_map (hk.update v info) _
        | false => exact alike_map (hk.init info) _
      · exact rfl

theorem alike_structAttribute {fs fs' : List (OField (States τ × Bool) τ' α')} (h : AlikeFields I fs fs') (cs : List (OCell τ' α')) (n : EName) (v : String) :
    structAttribute fs cs n v = structAttribute fs' cs n v := by
  unfold structAttribute
  rw [← alike_attrNames h, ← alike_flatPos h]
  rcases lookup n (structTable (attrNames fs 0)) with f | _ | p
  · rfl
  · exact alike_delegateAttribute h n _ cs v
  · simp only
    rcases alike_get h p with ⟨h1, h2⟩ | ⟨⟨n1, k1, d1⟩, ⟨n2, k2, d2⟩, h1, h2, _, _, hk⟩
    · rw [h1, h2]
    · rw [h1, h2]
      cases k1 <;> cases k2 <;> first | exact hk.elim | rfl | skip
      cases hk
      rcases cs[p]? with _ | (_ | t) <;> rfl

theorem struct_alike {fs fs' : List (OField (States τ × Bool) τ' α')} (h : AlikeFields I fs fs') : AlikeRaw I (structRaw fs) (structRaw fs') where
  ends := by
    simp only [ends, structRaw, alike_newCells h, Ends.mk.injEq, true_and]
    exact ⟨funext fun cs => funext fun _ => alike_finalizeCells h cs, funext fun cs => alike_structOut h cs⟩
  attr := funext fun cs => funext fun n => funext fun v => alike_structAttribute h cs n v
  characters := funext fun cs => funext fun s => funext fun pos => by
    simp only [structRaw, alike_flatPos h]
    exact alike_delegateCharacters h pos _ cs s
  elem cs info := alike_structElement h cs info

theorem alike_variantNames : ∀ {vs vs' : List (OVariant (States τ × Bool) α')}, AlikeVariants I vs vs' → ∀ p, variantNames vs p = variantNames vs' p
  | [], [], _, _ => rfl
  | v :: vs, v' :: vs', ⟨⟨h1, _⟩, h⟩, p => by simp only [variantNames, h1, alike_variantNames h]

theorem alike_getVariant : ∀ {vs vs' : List (OVariant (States τ × Bool) α')}, AlikeVariants I vs vs' → ∀ p : Nat,
    vs[p]? = none ∧ vs'[p]? = none ∨ ∃ v v', vs[p]? = some v ∧ vs'[p]? = some v' ∧ v.name = v'.name ∧
      (v.payload = none ∧ v'.payload = none ∨ ∃ impl impl', v.payload = some impl ∧ v'.payload = some impl' ∧ AlikeImpl I impl impl')
  | [], [], _, _ => .inl ⟨rfl, rfl⟩
  | v :: _, v' :: _, ⟨⟨hn, hp⟩, _⟩, 0 => by
    refine .inr ⟨v, v', rfl, rfl, hn, ?_⟩
    obtain ⟨n, pl⟩ := v
    obtain ⟨n', pl'⟩ := v'
    cases pl <;> cases pl' <;> first | exact hp.elim | skip
    · exact .inl ⟨rfl, rfl⟩
    · exact .inr ⟨_, _, rfl, rfl, hp⟩
  | _ :: vs, _ :: vs', ⟨_, h⟩, p + 1 => alike_getVariant h p

theorem alike_enumElement {vs vs' : List (OVariant (States τ × Bool) α')} (h : AlikeVariants I vs vs') (st : OEnum α') (info : ElemInfo) :
    AlikeOffer I (enumElement vs st info) (enumElement vs' st info) := by
  unfold enumElement
  rw [← alike_variantNames h]
  rcases lookup info.name.expanded (enumTable (variantNames vs 0)) with f | found
  · exact rfl
  · obtain ⟨b, cell⟩ := st
    simp only
    cases b with
    | true =>
      simp only [if_true]
      rcases cell with _ | ⟨i, payload⟩
      · exact rfl
      · simp only
        rcases alike_getVariant h i with ⟨h1, h2⟩ | ⟨v, v', h1, h2, hn, hp⟩
        · rw [h1, h2]; exact rfl
        · rw [h1, h2]
          simp only
          by_cases hf : found = some i
          · simp only [if_pos hf]
            rcases hp with ⟨h3, h4⟩ | ⟨impl, impl', h3, h4, hi⟩
            · rw [h3, h4]
              cases payload <;> exact rfl
            · rw [h3, h4]
              cases payload with
              | none => exact rfl
              | some p => exact alike_map (hi.update p info) _
          · simp only [if_neg hf, hn]
            cases found <;> exact rfl
    | false =>
      simp only [Bool.false_eq_true, if_false]
      rcases found with _ | i
      · exact rfl
      · simp only
        rcases alike_getVariant h i with ⟨h1, h2⟩ | ⟨v, v', h1, h2, hn, hp⟩
        · rw [h1, h2]; exact rfl
        · rw [h1, h2]
          simp only
          rcases hp with ⟨h3, h4⟩ | ⟨impl, impl', h3, h4, hi⟩
          · rw [h3, h4]; exact rfl
          · rw [h3, h4]
            exact alike_map (hi.init info) _

theorem enum_alike (ident : String) {vs vs' : List (OVariant (States τ × Bool) α')} (h : AlikeVariants I vs vs') :
    AlikeRaw I (enumRaw ident vs) (enumRaw ident vs') where
  ends := rfl
  attr := rfl
  characters := rfl
  elem st info := alike_enumElement h st info

theorem flag_alike {ρ : Type} {good : ρ → Prop} {a a' : PAction (States τ) ρ} (h : Same I good a a') : Alike I (flag a) (flag a') := by
  cases a <;> cases a' <;> first | exact h.elim | skip
  · exact h.1
  · exact fun x => (h x).1
  · obtain ⟨rfl, kind, hs, hk⟩ := h
    exact ⟨rfl, kind, hs, fun sub r hi => (hk sub.1 _ hi).1⟩

theorem one_alike {β : Type} {D D' : PDeser (States τ) β} (h : ∀ i, Same I (fun _ => True) (D i) (D' i)) : AlikeImpl I (one D) (one D') where
  init i := flag_alike (h i)
  update _ _ := rfl
  missing := rfl

theorem opt_alike {β : Type} {D D' : PDeser (States τ) β} (h : ∀ i, Same I (fun _ => True) (D i) (D' i)) : AlikeImpl I (opt D) (opt D') where
  init i := alike_map (flag_alike (h i)) _
  update _ _ := rfl
  missing := rfl

theorem vec_alike {β : Type} {D D' : PDeser (States τ) β} (h : ∀ i, Same I (fun _ => True) (D i) (D' i)) : AlikeImpl I (vec D) (vec D') where
  init i := alike_map (flag_alike (h i)) _
  update _ i := alike_map (flag_alike (h i)) _
  missing := rfl

theorem into_alike {β : Type} {impl impl' : FieldImpl (States τ × Bool) β} (h : AlikeImpl I impl impl') (inj : β → α') (get : α' → Option β) :
    AlikeImpl I (impl.into inj get) (impl'.into inj get) where
  init i := alike_map (h.init i) _
  update v i := by
    simp only [FieldImpl.into]
    cases get v with
    | none => exact rfl
    | some w => exact alike_map (h.update w i) _
  missing := by simp only [FieldImpl.into, h.missing]

end SX.Open
