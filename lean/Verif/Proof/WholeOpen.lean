import Verif.Proof.Whole

/-
The visitors of `Model/Open.lean` do the same if the implementations for their fields do the same.
-/
namespace SX.Whole
open SX.Open Spec Spec.Open SX.Gen Spec.Gen

section
variable {σ σ' τ τ' α β γ : Type}

/-- Neither, or both and related. -/
def OptRel (Q : β → γ → Prop) : Option β → Option γ → Prop
  | none, none => True
  | some a, some b => Q a b
  | _, _ => False

theorem opt_cases {Q : β → γ → Prop} {x : Option β} {y : Option γ} (h : OptRel Q x y) :
    (x = none ∧ y = none) ∨ ∃ a b, x = some a ∧ y = some b ∧ Q a b := by
  cases x <;> cases y <;> try exact False.elim h
  · exact .inl ⟨rfl, rfl⟩
  · exact .inr ⟨_, _, rfl, rfl, h⟩

/-- Two implementations for a field's type. -/
structure ImplRel (R : σ → σ' → Prop) (i : FieldImpl σ α) (i' : FieldImpl σ' α) : Prop where
  init : ∀ info, ActRel R Eq (i.init info) (i'.init info)
  update : ∀ v info, ActRel R Eq (i.update v info) (i'.update v info)
  missing : i.missing = i'.missing

/-! ### Enums -/

structure VariantRel (R : σ → σ' → Prop) (v : OVariant σ α) (v' : OVariant σ' α) : Prop where
  name : v.name = v'.name
  payload : OptRel (ImplRel R) v.payload v'.payload

theorem variantNames_rel {R : σ → σ' → Prop} (vs : List (OVariant σ α)) : ∀ (vs' : List (OVariant σ' α)) (k : Nat),
    (∀ p : Nat, OptRel (VariantRel R) vs[p]? vs'[p]?) → Open.variantNames vs k = Open.variantNames vs' k := by
  induction vs with
  | nil =>
    intro vs' k h
    cases vs' with
    | nil => rfl
    | cons v vs => exact False.elim (h 0)
  | cons v vs ih =>
    intro vs' k h
    cases vs' with
    | nil => exact False.elim (h 0)
    | cons v' vs' =>
      unfold Open.variantNames
      rw [(h 0).name, ih vs' (k + 1) fun p => h (p + 1)]

theorem enum_rel {R : σ → σ' → Prop} {vs : List (OVariant σ α)} {vs' : List (OVariant σ' α)} (ident : String)
    (h : ∀ p : Nat, OptRel (VariantRel R) vs[p]? vs'[p]?) : RawRel R Eq id (enumRaw ident vs) (enumRaw ident vs') where
  new := rfl
  attr := by rintro t _ rfl n v; exact ⟨rfl, rfl⟩
  characters := by rintro t _ rfl n v; exact ⟨rfl, rfl⟩
  element := by
    rintro t _ rfl info
    show Both _ (Open.enumElement vs t info) (Open.enumElement vs' t info)
    unfold Open.enumElement
    rw [variantNames_rel vs vs' 0 h]
    split
    · trivial
    · rename_i found hf
      split
      · split
        · trivial
        · rename_i i payload hc
          rcases opt_cases (h i) with ⟨h1, h2⟩ | ⟨v, v', h1, h2, hv⟩
          · rw [h1, h2]; trivial
          · rw [h1, h2]
            simp only
            split
            · rcases opt_cases hv.payload with ⟨h3, h4⟩ | ⟨i1, i2, h3, h4, hi⟩
              · rw [h3, h4]
                cases payload with
                | none => exact ⟨rfl, rfl⟩
                | some p => trivial
              · rw [h3, h4]
                cases payload with
                | none => trivial
                | some p =>
                  refine ActRel.map (hi.update p info) _ _ ?_
                  rintro r _ rfl
                  exact ⟨rfl, rfl⟩
            · rw [hv.name]
              split <;> exact ⟨rfl, rfl⟩
      · split
        · rfl
        · rename_i i
          rcases opt_cases (h i) with ⟨h1, h2⟩ | ⟨v, v', h1, h2, hv⟩
          · rw [h1, h2]; trivial
          · rw [h1, h2]
            simp only
            rcases opt_cases hv.payload with ⟨h3, h4⟩ | ⟨i1, i2, h3, h4, hi⟩
            · rw [h3, h4]
              have : ∀ x : Except Fault (OEnum α × Ret VErr Unit), Both (Step Eq) x x := fun x =>
                Both.mono (both_refl x) fun a b hab => by cases hab; exact ⟨rfl, rfl⟩
              exact this _
            · rw [h3, h4]
              refine ActRel.map (hi.init info) _ _ ?_
              rintro r _ rfl
              exact Both.mono (both_refl _) fun a b hab => by cases hab; exact ⟨rfl, rfl⟩
  finalize := by
    rintro t _ rfl
    refine Both.mono (both_refl _) fun a b hab => ?_
    cases hab
    exact ⟨rfl, fun _ => by simp [enumRaw]⟩

/-! ### Structs -/

inductive KindRel (R : σ → σ' → Prop) (T : τ → τ' → Prop) : OKind σ τ α → OKind σ' τ' α → Prop where
  | element {i : FieldImpl σ α} {i' : FieldImpl σ' α} (h : ImplRel R i i') : KindRel R T (.element i) (.element i')
  | attribute {i : AttrImpl α} : KindRel R T (.attribute i) (.attribute i)
  | flatten {r : Raw σ τ α} {r' : Raw σ' τ' α} (h : RawRel R T id r r') (hd : ∀ t d, r.finalize t d = r.finalize t none)
      (hd' : ∀ t d, r'.finalize t d = r'.finalize t none) : KindRel R T (.flatten r) (.flatten r')

structure FieldRel (R : σ → σ' → Prop) (T : τ → τ' → Prop) (f : OField σ τ α) (f' : OField σ' τ' α) : Prop where
  name : f.name = f'.name
  kind : KindRel R T f.kind f'.kind
  default : f.default = f'.default

def CellRel (T : τ → τ' → Prop) : OCell τ α → OCell τ' α → Prop
  | .plain b c, .plain b' c' => b = b' ∧ c = c'
  | .flat t, .flat t' => T t t'
  | _, _ => False

def Cells (T : Nat → τ → τ' → Prop) (cs : List (OCell τ α)) (cs' : List (OCell τ' α)) : Prop :=
  ∀ p, OptRel (CellRel (T p)) cs[p]? cs'[p]?

def Fields (R : σ → σ' → Prop) (T : Nat → τ → τ' → Prop) (fs : List (OField σ τ α)) (fs' : List (OField σ' τ' α)) : Prop :=
  ∀ p, OptRel (FieldRel R (T p)) fs[p]? fs'[p]?

theorem Cells.set {T : Nat → τ → τ' → Prop} {cs : List (OCell τ α)} {cs' : List (OCell τ' α)} (h : Cells T cs cs') {p : Nat}
    {c : OCell τ α} {c' : OCell τ' α} (hc : CellRel (T p) c c') : Cells T (cs.set p c) (cs'.set p c') := by
  intro q
  have hq := h q
  rw [List.getElem?_set, List.getElem?_set]
  by_cases hpq : p = q
  · subst hpq
    simp only [if_true]
    rcases opt_cases hq with ⟨h1, h2⟩ | ⟨a, b, h1, h2, _⟩
    · have h3 := List.getElem?_eq_none_iff.mp h1
      have h4 := List.getElem?_eq_none_iff.mp h2
      rw [if_neg (by omega), if_neg (by omega)]
      trivial
    · have h3 := (List.getElem?_eq_some_iff.mp h1).1
      have h4 := (List.getElem?_eq_some_iff.mp h2).1
      rw [if_pos h3, if_pos h4]
      exact hc
  · rw [if_neg hpq, if_neg hpq]
    exact hq

theorem names_rel {R : σ → σ' → Prop} (fs : List (OField σ τ α)) : ∀ (fs' : List (OField σ' τ' α)) (T : Nat → τ → τ' → Prop) (k : Nat),
    Fields R T fs fs' → Open.elemNames fs k = Open.elemNames fs' k ∧ Open.attrNames fs k = Open.attrNames fs' k ∧ flatPos fs k = flatPos fs' k := by
  induction fs with
  | nil =>
    intro fs' T k h
    cases fs' with
    | nil => exact ⟨rfl, rfl, rfl⟩
    | cons v vs => exact False.elim (h 0)
  | cons f fs ih =>
    intro fs' T k h
    cases fs' with
    | nil => exact False.elim (h 0)
    | cons f' fs' =>
      have h0 : FieldRel R (T 0) f f' := h 0
      obtain ⟨h1, h2, h3⟩ := ih fs' (fun p => T (p + 1)) (k + 1) fun p => h (p + 1)
      unfold Open.elemNames Open.attrNames flatPos
      rw [h0.name, h1, h2, h3]
      have hk := h0.kind
      revert hk
      generalize f.kind = a
      generalize f'.kind = b
      intro hk
      cases hk <;> exact ⟨rfl, rfl, rfl⟩

theorem delegateElement_rel {R : σ → σ' → Prop} {T : Nat → τ → τ' → Prop} {fs : List (OField σ τ α)} {fs' : List (OField σ' τ' α)}
    (hF : Fields R T fs fs') (info : ElemInfo) (ps : List Nat) : ∀ cs cs', Cells T cs cs' →
    Both (OfferRel R (Cells T)) (Open.delegateElement fs info ps cs) (Open.delegateElement fs' info ps cs') := by
  induction ps with
  | nil => exact fun cs cs' h => h
  | cons p ps ih =>
    intro cs cs' h
    unfold Open.delegateElement
    rcases opt_cases (hF p) with ⟨h1, h2⟩ | ⟨⟨n, k, d⟩, ⟨n', k', d'⟩, h1, h2, hf⟩
    · rw [h1, h2]; trivial
    rcases opt_cases (h p) with ⟨h3, h4⟩ | ⟨c, c', h3, h4, hc⟩
    · rw [h1, h2, h3, h4]; cases k <;> cases k' <;> trivial
    rw [h1, h2, h3, h4]
    have hk := hf.kind
    simp only at hk
    cases hk with
    | element => cases c <;> cases c' <;> trivial
    | «attribute» => cases c <;> cases c' <;> trivial
    | flatten hr hd hd' =>
      cases c <;> cases c' <;> try exact False.elim hc
      · trivial
      · rename_i r r' t t'
        simp only
        rcases both_cases (hr.element t t' hc info) with ⟨e, e', h5, h6⟩ | ⟨o, o', h5, h6, ho⟩
        · rw [h5, h6]; trivial
        · rw [h5, h6]
          cases o <;> cases o' <;> try exact False.elim ho
          · exact ih _ _ (h.set ho)
          · refine ActRel.map ho _ _ fun x y hxy => ?_
            rcases both_cases hxy with ⟨e, e', rfl, rfl⟩ | ⟨⟨w, x⟩, ⟨w', x'⟩, rfl, rfl, hw, hx⟩
            · trivial
            · exact ⟨h.set hw, hx⟩

theorem delegateAttribute_rel {R : σ → σ' → Prop} {T : Nat → τ → τ' → Prop} {fs : List (OField σ τ α)} {fs' : List (OField σ' τ' α)}
    (hF : Fields R T fs fs') (nm : EName) (ps : List Nat) : ∀ cs cs' v, Cells T cs cs' →
    Both (Step (Cells T)) (Open.delegateAttribute fs nm ps cs v) (Open.delegateAttribute fs' nm ps cs' v) := by
  induction ps with
  | nil => exact fun cs cs' v h => ⟨h, rfl⟩
  | cons p ps ih =>
    intro cs cs' v h
    unfold Open.delegateAttribute
    rcases opt_cases (hF p) with ⟨h1, h2⟩ | ⟨⟨n, k, d⟩, ⟨n', k', d'⟩, h1, h2, hf⟩
    · rw [h1, h2]; trivial
    rcases opt_cases (h p) with ⟨h3, h4⟩ | ⟨c, c', h3, h4, hc⟩
    · rw [h1, h2, h3, h4]; cases k <;> cases k' <;> trivial
    rw [h1, h2, h3, h4]
    have hk := hf.kind
    simp only at hk
    cases hk with
    | element => cases c <;> cases c' <;> trivial
    | «attribute» => cases c <;> cases c' <;> trivial
    | flatten hr hd hd' =>
      cases c <;> cases c' <;> try exact False.elim hc
      · trivial
      · rename_i r r' t t'
        simp only
        rcases both_cases (hr.attr t t' hc nm v) with ⟨e, e', h5, h6⟩ | ⟨⟨w, x⟩, ⟨w', x'⟩, h5, h6, hw, hx⟩
        · rw [h5, h6]; trivial
        · rw [h5, h6]
          cases hx
          cases x with
          | ok o =>
            cases o with
            | none => exact ⟨h.set hw, rfl⟩
            | some v => exact ih _ _ v (h.set hw)
          | err e => exact ⟨h.set hw, rfl⟩
          | panic => exact ⟨h.set hw, rfl⟩

theorem delegateCharacters_rel {R : σ → σ' → Prop} {T : Nat → τ → τ' → Prop} {fs : List (OField σ τ α)} {fs' : List (OField σ' τ' α)}
    (hF : Fields R T fs fs') (pos : Pos) (ps : List Nat) : ∀ cs cs' v, Cells T cs cs' →
    Both (Step (Cells T)) (Open.delegateCharacters fs pos ps cs v) (Open.delegateCharacters fs' pos ps cs' v) := by
  induction ps with
  | nil => exact fun cs cs' v h => ⟨h, rfl⟩
  | cons p ps ih =>
    intro cs cs' v h
    unfold Open.delegateCharacters
    rcases opt_cases (hF p) with ⟨h1, h2⟩ | ⟨⟨n, k, d⟩, ⟨n', k', d'⟩, h1, h2, hf⟩
    · rw [h1, h2]; trivial
    rcases opt_cases (h p) with ⟨h3, h4⟩ | ⟨c, c', h3, h4, hc⟩
    · rw [h1, h2, h3, h4]; cases k <;> cases k' <;> trivial
    rw [h1, h2, h3, h4]
    have hk := hf.kind
    simp only at hk
    cases hk with
    | element => cases c <;> cases c' <;> trivial
    | «attribute» => cases c <;> cases c' <;> trivial
    | flatten hr hd hd' =>
      cases c <;> cases c' <;> try exact False.elim hc
      · trivial
      · rename_i r r' t t'
        simp only
        rcases both_cases (hr.characters t t' hc v pos) with ⟨e, e', h5, h6⟩ | ⟨⟨w, x⟩, ⟨w', x'⟩, h5, h6, hw, hx⟩
        · rw [h5, h6]; trivial
        · rw [h5, h6]
          cases hx
          cases x with
          | ok o =>
            cases o with
            | none => exact ⟨h.set hw, rfl⟩
            | some v => exact ih _ _ v (h.set hw)
          | err e => exact ⟨h.set hw, rfl⟩
          | panic => exact ⟨h.set hw, rfl⟩

theorem structElement_rel {R : σ → σ' → Prop} {T : Nat → τ → τ' → Prop} {fs : List (OField σ τ α)} {fs' : List (OField σ' τ' α)}
    (hF : Fields R T fs fs') (info : ElemInfo) (cs : List (OCell τ α)) (cs' : List (OCell τ' α)) (h : Cells T cs cs') :
    Both (OfferRel R (Cells T)) (Open.structElement fs cs info) (Open.structElement fs' cs' info) := by
  obtain ⟨n1, n2, n3⟩ := names_rel fs fs' T 0 hF
  unfold Open.structElement
  rw [n1, n3]
  split
  · trivial
  · exact delegateElement_rel hF info _ _ _ h
  · rename_i p hp
    rcases opt_cases (hF p) with ⟨h1, h2⟩ | ⟨⟨n, k, d⟩, ⟨n', k', d'⟩, h1, h2, hf⟩
    · rw [h1, h2]; trivial
    rcases opt_cases (h p) with ⟨h3, h4⟩ | ⟨c, c', h3, h4, hc⟩
    · rw [h1, h2, h3, h4]; cases k <;> cases k' <;> trivial
    rw [h1, h2, h3, h4]
    have hk := hf.kind
    simp only at hk
    cases hk with
    | flatten => cases c <;> cases c' <;> trivial
    | «attribute» => cases c <;> cases c' <;> trivial
    | element hi =>
      cases c <;> cases c' <;> try exact False.elim hc
      · obtain ⟨rfl, rfl⟩ := hc
        simp only
        split
        · split
          · trivial
          · refine ActRel.map (hi.update _ info) _ _ ?_
            rintro r _ rfl
            exact ⟨h.set ⟨rfl, rfl⟩, rfl⟩
        · refine ActRel.map (hi.init info) _ _ ?_
          rintro r _ rfl
          cases r with
          | ok v =>
            rename_i cell _
            cases cell with
            | none => exact ⟨h.set ⟨rfl, rfl⟩, rfl⟩
            | some x => trivial
          | err e => exact ⟨h, rfl⟩
          | panic => exact ⟨h, rfl⟩
      · trivial

theorem structAttribute_rel {R : σ → σ' → Prop} {T : Nat → τ → τ' → Prop} {fs : List (OField σ τ α)} {fs' : List (OField σ' τ' α)}
    (hF : Fields R T fs fs') (n : EName) (v : String) (cs : List (OCell τ α)) (cs' : List (OCell τ' α)) (h : Cells T cs cs') :
    Both (Step (Cells T)) (Open.structAttribute fs cs n v) (Open.structAttribute fs' cs' n v) := by
  obtain ⟨n1, n2, n3⟩ := names_rel fs fs' T 0 hF
  unfold Open.structAttribute
  rw [n2, n3]
  split
  · trivial
  · exact delegateAttribute_rel hF n _ _ _ v h
  · rename_i p hp
    rcases opt_cases (hF p) with ⟨h1, h2⟩ | ⟨⟨n, k, d⟩, ⟨n', k', d'⟩, h1, h2, hf⟩
    · rw [h1, h2]; trivial
    rcases opt_cases (h p) with ⟨h3, h4⟩ | ⟨c, c', h3, h4, hc⟩
    · rw [h1, h2, h3, h4]; cases k <;> cases k' <;> trivial
    rw [h1, h2, h3, h4]
    have hk := hf.kind
    simp only at hk
    cases hk with
    | flatten => cases c <;> cases c' <;> trivial
    | element => cases c <;> cases c' <;> trivial
    | «attribute» =>
      cases c <;> cases c' <;> try exact False.elim hc
      · obtain ⟨rfl, rfl⟩ := hc
        rename_i b cell
        simp only
        split
        · exact ⟨h, rfl⟩
        · split
          · cases cell with
            | none => exact ⟨h.set ⟨rfl, rfl⟩, rfl⟩
            | some x => trivial
          · exact ⟨h, rfl⟩
          · exact ⟨h, rfl⟩
      · trivial

/-- What of this matters for `new` and `finalize`. -/
inductive KindFin (T : τ → τ' → Prop) : OKind σ τ α → OKind σ' τ' α → Prop where
  | element {i : FieldImpl σ α} {i' : FieldImpl σ' α} (h : i.missing = i'.missing) : KindFin T (.element i) (.element i')
  | attribute {i : AttrImpl α} : KindFin T (.attribute i) (.attribute i)
  | flatten {r : Raw σ τ α} {r' : Raw σ' τ' α} (hn : T r.new r'.new)
      (h : ∀ t t', T t t' → Both (Final id r.out r'.out) (r.finalize t none) (r'.finalize t' none))
      (hd : ∀ t d, r.finalize t d = r.finalize t none) (hd' : ∀ t d, r'.finalize t d = r'.finalize t none) : KindFin T (.flatten r) (.flatten r')

structure FieldFin (T : τ → τ' → Prop) (f : OField σ τ α) (f' : OField σ' τ' α) : Prop where
  name : f.name = f'.name
  kind : KindFin T f.kind f'.kind
  default : f.default = f'.default

def FieldsFin (T : Nat → τ → τ' → Prop) (fs : List (OField σ τ α)) (fs' : List (OField σ' τ' α)) : Prop :=
  ∀ p, OptRel (FieldFin (T p)) fs[p]? fs'[p]?

theorem Fields.fin {R : σ → σ' → Prop} {T : Nat → τ → τ' → Prop} {fs : List (OField σ τ α)} {fs' : List (OField σ' τ' α)}
    (hF : Fields R T fs fs') : FieldsFin T fs fs' := by
  intro p
  rcases opt_cases (hF p) with ⟨h1, h2⟩ | ⟨⟨n, k, d⟩, ⟨n', k', d'⟩, h1, h2, hf⟩
  · rw [h1, h2]; trivial
  · rw [h1, h2]
    refine ⟨hf.name, ?_, hf.default⟩
    have hk := hf.kind
    simp only at hk ⊢
    cases hk with
    | element h => exact .element h.missing
    | «attribute» => exact .attribute
    | flatten h hd hd' => exact .flatten h.new h.finalize hd hd'

theorem finalizeCell_rel {T : τ → τ' → Prop} {f : OField σ τ α} {f' : OField σ' τ' α}
    (hf : FieldFin T f f') {c : OCell τ α} {c' : OCell τ' α} (hc : CellRel T c c') :
    Both (Final id (Open.cellOut f) (Open.cellOut f')) (Open.finalizeCell f c) (Open.finalizeCell f' c') := by
  obtain ⟨n, k, d⟩ := f
  obtain ⟨n', k', d'⟩ := f'
  have hn := hf.name
  have hd := hf.default
  have hk := hf.kind
  simp only at hn hd hk
  subst hn hd
  unfold Open.finalizeCell
  have plain : ∀ (b : Bool) (cell : Option α) (m : Ret VErr α) (k : OKind σ τ α) (k' : OKind σ' τ' α), (∀ r, k ≠ .flatten r) → (∀ r, k' ≠ .flatten r) →
      Both (Final id (Open.cellOut ⟨n, k, d⟩) (Open.cellOut ⟨n, k', d⟩)) (Open.finalizeCell.plain ⟨n, k, d⟩ b cell m)
        (Open.finalizeCell.plain ⟨n, k', d⟩ b cell m) := by
    intro b cell m k k' hk hk'
    have ho : ∀ b cell, Open.cellOut (τ := τ') ⟨n, k', d⟩ (.plain b cell) = (Open.cellOut (τ := τ) ⟨n, k, d⟩ (.plain b cell)).map id := by
      intro b cell
      unfold Open.cellOut
      cases k <;> cases k' <;> simp_all
    unfold Open.finalizeCell.plain
    split
    · exact ⟨rfl, fun _ => ho _ _⟩
    · simp only
      split
      · cases cell with
        | none => exact ⟨rfl, fun _ => ho _ _⟩
        | some x => trivial
      · exact ⟨rfl, fun h => by simp at h⟩
      · exact ⟨rfl, fun h => by simp at h⟩
  cases hk with
  | element hi =>
    cases c <;> cases c' <;> try exact False.elim hc
    · obtain ⟨rfl, rfl⟩ := hc
      simp only
      rw [hi]
      exact plain _ _ _ _ _ (fun _ h => by cases h) (fun _ h => by cases h)
    · trivial
  | «attribute» =>
    cases c <;> cases c' <;> try exact False.elim hc
    · obtain ⟨rfl, rfl⟩ := hc
      exact plain _ _ _ _ _ (fun _ h => by cases h) (fun _ h => by cases h)
    · trivial
  | flatten hn hr hd hd' =>
    cases c <;> cases c' <;> try exact False.elim hc
    · trivial
    · rename_i t t'
      simp only
      rw [hd t, hd' t']
      rcases both_cases (hr t t' hc) with ⟨e, e', h5, h6⟩ | ⟨x, y, h5, h6, h⟩
      · rw [h5, h6]; trivial
      · rw [h5, h6]
        exact h

theorem finalizeCells_rel (fs : List (OField σ τ α)) : ∀ (fs' : List (OField σ' τ' α)) (T : Nat → τ → τ' → Prop)
    (cs : List (OCell τ α)) (cs' : List (OCell τ' α)), FieldsFin T fs fs' → Cells T cs cs' →
    Both (Final id (structOut fs) (structOut fs')) (Open.finalizeCells fs cs) (Open.finalizeCells fs' cs') := by
  induction fs with
  | nil =>
    intro fs' T cs cs' hF h
    cases fs' with
    | nil => exact ⟨rfl, fun _ => rfl⟩
    | cons v vs => exact False.elim (hF 0)
  | cons f fs ih =>
    intro fs' T cs cs' hF h
    cases fs' with
    | nil => exact False.elim (hF 0)
    | cons f' fs' =>
      cases cs with
      | nil =>
        cases cs' with
        | nil => trivial
        | cons => exact False.elim (h 0)
      | cons c cs =>
        cases cs' with
        | nil => exact False.elim (h 0)
        | cons c' cs' =>
          have h0 : FieldFin (T 0) f f' := hF 0
          have hc0 : CellRel (T 0) c c' := h 0
          unfold Open.finalizeCells
          rcases both_cases (finalizeCell_rel h0 hc0) with ⟨e, e', h5, h6⟩ | ⟨⟨x, r⟩, ⟨y, r'⟩, h5, h6, hr, ho⟩
          · rw [h5, h6]; trivial
          · rw [h5, h6]
            simp only at hr
            subst hr
            cases r with
            | ok u =>
              simp only
              rcases both_cases (ih fs' (fun p => T (p + 1)) cs cs' (fun p => hF (p + 1)) fun p => h (p + 1)) with
                ⟨e, e', h7, h8⟩ | ⟨⟨xs, r⟩, ⟨ys, r'⟩, h7, h8, hr, ho'⟩
              · rw [h7, h8]; trivial
              · rw [h7, h8]
                refine ⟨hr, fun hok => ?_⟩
                have o1 := ho rfl
                have o2 := ho' hok
                simp only [Option.map_id, id_eq] at o1 o2
                simp only [structOut, o1, o2]
                split <;> simp
            | err e => exact ⟨rfl, fun h => by simp at h⟩
            | panic => exact ⟨rfl, fun h => by simp at h⟩

theorem new_rel {T : Nat → τ → τ' → Prop} {fs : List (OField σ τ α)} {fs' : List (OField σ' τ' α)}
    (hF : FieldsFin T fs fs') : Cells T (structRaw fs).new (structRaw fs').new := by
  intro p
  show OptRel _ (fs.map newCell)[p]? (fs'.map newCell)[p]?
  rw [List.getElem?_map, List.getElem?_map]
  rcases opt_cases (hF p) with ⟨h1, h2⟩ | ⟨⟨n, k, d⟩, ⟨n', k', d'⟩, h1, h2, hf⟩
  · rw [h1, h2]; trivial
  · rw [h1, h2]
    have hk := hf.kind
    simp only at hk
    cases hk with
    | element => exact ⟨rfl, rfl⟩
    | «attribute» => exact ⟨rfl, rfl⟩
    | flatten hn => exact hn

theorem struct_rel {R : σ → σ' → Prop} {T : Nat → τ → τ' → Prop} {fs : List (OField σ τ α)} {fs' : List (OField σ' τ' α)}
    (hF : Fields R T fs fs') : RawRel R (Cells T) id (structRaw fs) (structRaw fs') where
  new := new_rel hF.fin
  attr cs cs' h n v := structAttribute_rel hF n v cs cs' h
  characters cs cs' h s pos := by
    obtain ⟨n1, n2, n3⟩ := names_rel fs fs' T 0 hF
    show Both _ (Open.delegateCharacters fs pos (flatPos fs 0) cs s) (Open.delegateCharacters fs' pos (flatPos fs' 0) cs' s)
    rw [n3]
    exact delegateCharacters_rel hF pos _ _ _ s h
  element cs cs' h info := structElement_rel hF info cs cs' h
  finalize cs cs' h := finalizeCells_rel fs fs' T cs cs' hF.fin h

end

end SX.Whole
