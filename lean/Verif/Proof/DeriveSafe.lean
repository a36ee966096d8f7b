import Verif.Model.DeriveDe
import Verif.Proof.Names
import Verif.Proof.ReaderTotal
import Verif.Props.Text

/-
The derived visitors keep their memory consistent: a `_present` flag says that the field is initialized,
and the content fits the field's type.
-/
namespace SX
open Spec

theorem lookup_mem {name : EName} {t : List (Nat × EName)} {p : Nat} (h : lookup name t = .ok (some p)) :
    p ∈ t.map Prod.fst := by
  unfold lookup at h
  split at h
  · simp at h
  · simp at h
  · split at h
    · simp at h
    · rename_i heq
      simp only [Except.ok.injEq, Option.some.injEq] at h
      subst h
      have := List.mem_of_getElem? heq
      exact List.mem_map.mpr ⟨_, this, rfl⟩

theorem elemNames_mem (fields : List Field) (k p : Nat) (nm : DName) :
    (p, nm) ∈ elemNames fields k ↔ ∃ f s, k ≤ p ∧ fields[p - k]? = some f ∧ f.kind = .element s ∧ f.name = nm := by
  induction fields generalizing k with
  | nil => simp [elemNames]
  | cons f fs ih =>
    have key : (∃ g s, k + 1 ≤ p ∧ fs[p - (k + 1)]? = some g ∧ g.kind = Kind.element s ∧ g.name = nm) ↔
        ∃ g s, k ≤ p ∧ p ≠ k ∧ (f :: fs)[p - k]? = some g ∧ g.kind = .element s ∧ g.name = nm := by
      constructor
      · rintro ⟨g, s, h1, h2, h3⟩
        refine ⟨g, s, by omega, by omega, ?_, h3⟩
        rw [show p - k = (p - (k + 1)) + 1 by omega, List.getElem?_cons_succ]
        exact h2
      · rintro ⟨g, s, h1, h2, h3, h4⟩
        refine ⟨g, s, by omega, ?_, h4⟩
        rw [show p - k = (p - (k + 1)) + 1 by omega, List.getElem?_cons_succ] at h3
        exact h3
    unfold elemNames
    split
    · rename_i s hk
      rw [List.mem_cons, ih, key]
      constructor
      · rintro (h | ⟨g, s, h1, h2, h3⟩)
        · simp only [Prod.mk.injEq] at h
          exact ⟨f, s, by omega, by simp [h.1], hk, h.2.symm⟩
        · exact ⟨g, s, h1, h3⟩
      · rintro ⟨g, s, h1, h2, h3⟩
        by_cases hp : p = k
        · left
          simp [hp] at h2
          simp [hp, h2, h3.2]
        · exact .inr ⟨g, s, h1, hp, h2, h3⟩
    · rename_i hk
      rw [ih, key]
      constructor
      · rintro ⟨g, s, h1, h2, h3⟩
        exact ⟨g, s, h1, h3⟩
      · rintro ⟨g, s, h1, h2, h3⟩
        refine ⟨g, s, h1, ?_, h2, h3⟩
        intro hp
        simp [hp] at h2
        exact hk s (h2 ▸ h3.1)

theorem attrNames_mem (fields : List Field) (k p : Nat) (nm : DName) :
    (p, nm) ∈ attrNames fields k ↔
      ∃ f o t, k ≤ p ∧ fields[p - k]? = some f ∧ f.kind = .attribute o t ∧ f.name = nm := by
  induction fields generalizing k with
  | nil => simp [attrNames]
  | cons f fs ih =>
    have key : (∃ g o t, k + 1 ≤ p ∧ fs[p - (k + 1)]? = some g ∧ g.kind = Kind.attribute o t ∧ g.name = nm) ↔
        ∃ g o t, k ≤ p ∧ p ≠ k ∧ (f :: fs)[p - k]? = some g ∧ g.kind = .attribute o t ∧ g.name = nm := by
      constructor
      · rintro ⟨g, o, t, h1, h2, h3⟩
        refine ⟨g, o, t, by omega, by omega, ?_, h3⟩
        rw [show p - k = (p - (k + 1)) + 1 by omega, List.getElem?_cons_succ]
        exact h2
      · rintro ⟨g, o, t, h1, h2, h3, h4⟩
        refine ⟨g, o, t, by omega, ?_, h4⟩
        rw [show p - k = (p - (k + 1)) + 1 by omega, List.getElem?_cons_succ] at h3
        exact h3
    unfold attrNames
    split
    · rename_i o t hk
      rw [List.mem_cons, ih, key]
      constructor
      · rintro (h | ⟨g, o, t, h1, h2, h3⟩)
        · simp only [Prod.mk.injEq] at h
          exact ⟨f, o, t, by omega, by simp [h.1], hk, h.2.symm⟩
        · exact ⟨g, o, t, h1, h3⟩
      · rintro ⟨g, o, t, h1, h2, h3⟩
        by_cases hp : p = k
        · left
          simp [hp] at h2
          simp [hp, h2, h3.2]
        · exact .inr ⟨g, o, t, h1, hp, h2, h3⟩
    · rename_i hk
      rw [ih, key]
      constructor
      · rintro ⟨g, o, t, h1, h2, h3⟩
        exact ⟨g, o, t, h1, h3⟩
      · rintro ⟨g, o, t, h1, h2, h3⟩
        refine ⟨g, o, t, h1, ?_, h2, h3⟩
        intro hp
        simp [hp] at h2
        exact hk o t (h2 ▸ h3.1)

theorem flattens_mem (fields : List Field) (k p e : Nat) (h : (p, e) ∈ flattens fields k) :
    ∃ f, k ≤ p ∧ fields[p - k]? = some f ∧ f.kind = .flatten e := by
  induction fields generalizing k with
  | nil => simp [flattens] at h
  | cons f fs ih =>
    have key : (p, e) ∈ flattens fs (k + 1) → ∃ g, k ≤ p ∧ (f :: fs)[p - k]? = some g ∧ g.kind = .flatten e := by
      intro h
      obtain ⟨g, h1, h2, h3⟩ := ih _ h
      refine ⟨g, by omega, ?_, h3⟩
      rw [show p - k = (p - (k + 1)) + 1 by omega, List.getElem?_cons_succ]
      exact h2
    unfold flattens at h
    split at h
    · rename_i e' hk
      rw [List.mem_cons] at h
      rcases h with h | h
      · simp only [Prod.mk.injEq] at h
        exact ⟨f, by omega, by simp [h.1], by rw [hk, h.2]⟩
      · exact key h
    · exact key h

theorem variantNames_mem (vs : List Variant) (k p : Nat) (nm : DName) :
    (p, nm) ∈ variantNames vs k ↔ ∃ v, k ≤ p ∧ vs[p - k]? = some v ∧ v.skip = false ∧ v.name = nm := by
  induction vs generalizing k with
  | nil => simp [variantNames]
  | cons f fs ih =>
    have key : (∃ g, k + 1 ≤ p ∧ fs[p - (k + 1)]? = some g ∧ g.skip = false ∧ g.name = nm) ↔
        ∃ g, k ≤ p ∧ p ≠ k ∧ (f :: fs)[p - k]? = some g ∧ g.skip = false ∧ g.name = nm := by
      constructor
      · rintro ⟨g, h1, h2, h3⟩
        refine ⟨g, by omega, by omega, ?_, h3⟩
        rw [show p - k = (p - (k + 1)) + 1 by omega, List.getElem?_cons_succ]
        exact h2
      · rintro ⟨g, h1, h2, h3, h4⟩
        refine ⟨g, by omega, ?_, h4⟩
        rw [show p - k = (p - (k + 1)) + 1 by omega, List.getElem?_cons_succ] at h3
        exact h3
    unfold variantNames
    split
    · rename_i hk
      rw [ih, key]
      constructor
      · rintro ⟨g, h1, h2, h3⟩
        exact ⟨g, h1, h3⟩
      · rintro ⟨g, h1, h2, h3⟩
        refine ⟨g, h1, ?_, h2, h3⟩
        intro hp
        simp [hp] at h2
        rw [← h2] at h3
        simp [hk] at h3
    · rename_i hk
      rw [List.mem_cons, ih, key]
      constructor
      · rintro (h | ⟨g, h1, h2, h3⟩)
        · simp only [Prod.mk.injEq] at h
          exact ⟨f, by omega, by simp [h.1], by simpa using hk, h.2.symm⟩
        · exact ⟨g, h1, h3⟩
      · rintro ⟨g, h1, h2, h3⟩
        by_cases hp : p = k
        · left
          simp [hp] at h2
          simp [hp, h2, h3.2]
        · exact .inr ⟨g, h1, hp, h2, h3⟩

theorem lookup_elem_pos {fields : List Field} {n : EName} {p : Nat}
    (h : lookup n (structTable (elemNames fields 0)) = .ok (some p)) :
    ∃ f s, fields[p]? = some f ∧ f.kind = .element s := by
  have h1 := ((structTable_perm (elemNames fields 0)).map Prod.fst).mem_iff.mp (lookup_mem h)
  simp only [List.map_map, List.mem_map, Function.comp] at h1
  obtain ⟨⟨q, nm⟩, h2, h3⟩ := h1
  obtain ⟨f, s, -, h4, h5, -⟩ := (elemNames_mem _ _ _ _).mp h2
  simp only at h3
  exact ⟨f, s, by simpa [h3] using h4, h5⟩

theorem lookup_attr_pos {fields : List Field} {n : EName} {p : Nat}
    (h : lookup n (structTable (attrNames fields 0)) = .ok (some p)) :
    ∃ f o t, fields[p]? = some f ∧ f.kind = .attribute o t := by
  have h1 := ((structTable_perm (attrNames fields 0)).map Prod.fst).mem_iff.mp (lookup_mem h)
  simp only [List.map_map, List.mem_map, Function.comp] at h1
  obtain ⟨⟨q, nm⟩, h2, h3⟩ := h1
  obtain ⟨f, o, t, -, h4, h5, -⟩ := (attrNames_mem _ _ _ _).mp h2
  simp only at h3
  exact ⟨f, o, t, by simpa [h3] using h4, h5⟩

theorem lookup_variant_pos {vs : List Variant} {n : EName} {p : Nat}
    (h : lookup n (enumTable (variantNames vs 0)) = .ok (some p)) : ∃ v, vs[p]? = some v := by
  have h1 := ((enumTable_perm (variantNames vs 0)).map Prod.fst).mem_iff.mp (lookup_mem h)
  simp only [List.map_map, List.mem_map, Function.comp] at h1
  obtain ⟨⟨q, nm⟩, h2, h3⟩ := h1
  obtain ⟨v, -, h4, -⟩ := (variantNames_mem _ _ _ _).mp h2
  simp only at h3
  exact ⟨v, by simpa [h3] using h4⟩

/-! ## The invariant -/

def GoodSlot (s : Slot) (v : Val) : Prop := s.card = .many → ∃ l, v = .vec l

def GoodVariant (v : Variant) (p : Option Val) : Prop :=
  match v.slot with
  | none => p = none
  | some s => ∃ x, p = some x ∧ GoodSlot s x

def GoodEnum (d : EnumDef) (st : FState) : Prop :=
  (st.present = false ∧ st.cell = none) ∨
  (st.present = true ∧ ∃ i v p, st.cell = some (.enm i p) ∧ d.variants[i]? = some v ∧ GoodVariant v p)

def GoodField (env : Env) (f : Field) (st : FState) : Prop :=
  match f.kind with
  | .element s => (st.present = false ∧ st.cell = none) ∨ (st.present = true ∧ ∃ v, st.cell = some v ∧ GoodSlot s v)
  | .attribute _ _ => (st.present = false ∧ st.cell = none) ∨ (st.present = true ∧ ∃ v, st.cell = some v)
  | .flatten e => GoodEnum (env.enm e) st
  | .text _ => False

def GoodFields (env : Env) : List Field → List FState → Prop
  | [], [] => True
  | f :: fs, st :: sts => GoodField env f st ∧ GoodFields env fs sts
  | _, _ => False

def Good (env : Env) : DState → Prop
  | .strct i fs => GoodFields env (env.strct i).fields fs
  | .enm i st => GoodEnum (env.enm i) st

theorem GoodFields.get {env : Env} {fields : List Field} {fs : List FState} (h : GoodFields env fields fs) {p : Nat}
    {f : Field} (hp : fields[p]? = some f) : ∃ st, fs[p]? = some st ∧ GoodField env f st := by
  induction fields generalizing fs p with
  | nil => simp at hp
  | cons g gs ih =>
    cases fs with
    | nil => exact h.elim
    | cons st sts =>
      cases p with
      | zero => simp at hp; subst hp; exact ⟨st, rfl, h.1⟩
      | succ p => simpa using ih h.2 (by simpa using hp)

theorem GoodFields.set {env : Env} {fields : List Field} {fs : List FState} (h : GoodFields env fields fs) {p : Nat}
    {f : Field} (hp : fields[p]? = some f) {st : FState} (hst : GoodField env f st) :
    GoodFields env fields (fs.set p st) := by
  induction fields generalizing fs p with
  | nil => simp at hp
  | cons g gs ih =>
    cases fs with
    | nil => exact h.elim
    | cons st' sts =>
      cases p with
      | zero => simp at hp; subst hp; exact ⟨hst, h.2⟩
      | succ p => exact ⟨h.1, ih h.2 (by simpa using hp)⟩

/-- Types whose content can be deserialized with derived code. -/
def NoText (env : Env) : Prop := ∀ i (f : Field) t, f ∈ (env.strct i).fields → f.kind ≠ .text t

theorem good_newStruct (env : Env) (hT : NoText env) (i : Nat) : Good env (newStruct env i) := by
  have : ∀ fields : List Field, (∀ f ∈ fields, ∀ t, f.kind ≠ .text t) →
      GoodFields env fields (fields.map fun _ => ⟨false, none⟩) := by
    intro fields
    induction fields with
    | nil => exact fun _ => trivial
    | cons f fs ih =>
      intro h
      refine ⟨?_, ih fun g hg => h g (List.mem_cons_of_mem _ hg)⟩
      have := h f List.mem_cons_self
      unfold GoodField
      split
      · exact .inl ⟨rfl, rfl⟩
      · exact .inl ⟨rfl, rfl⟩
      · exact .inl ⟨rfl, rfl⟩
      · rename_i t ht; exact this t ht
  exact this _ fun f hf t => hT i f t hf

theorem good_newEnum (env : Env) (i : Nat) : Good env (newEnum i) := .inl ⟨rfl, rfl⟩

theorem finalizeField_good {env : Env} {f : Field} {st : FState} (h : GoodField env f st) :
    (∃ e, finalizeField env f st = .ok (.error e)) ∨
    (∃ st' v, finalizeField env f st = .ok (.ok st') ∧ st'.cell = some v) := by
  cases f with | mk name kind default =>
  unfold GoodField at h
  unfold finalizeField
  cases kind
  · rename_i s
    simp only at h ⊢
    rcases h with ⟨h1, h2⟩ | ⟨h1, v, h2, -⟩
    · simp only [h1, Bool.false_eq_true, if_false]
      split
      · exact .inr ⟨_, _, by simp only [writeCell, h2, Except.map]; rfl, rfl⟩
      · split
        · exact .inl ⟨_, rfl⟩
        · exact .inr ⟨_, _, by simp only [writeCell, h2, Except.map]; rfl, rfl⟩
    · simp only [h1, if_true]
      exact .inr ⟨_, _, rfl, h2⟩
  · rename_i o t
    simp only at h ⊢
    rcases h with ⟨h1, h2⟩ | ⟨h1, v, h2⟩
    · simp only [h1, Bool.false_eq_true, if_false]
      split
      · exact .inr ⟨_, _, by simp only [writeCell, h2, Except.map]; rfl, rfl⟩
      · split
        · exact .inr ⟨_, _, by simp only [writeCell, h2, Except.map]; rfl, rfl⟩
        · exact .inl ⟨_, rfl⟩
    · simp only [h1, if_true]
      exact .inr ⟨_, _, rfl, h2⟩
  · simp only at h ⊢
    rcases h with ⟨h1, h2⟩ | ⟨h1, i, v, p, h2, -⟩
    · simp only [h1, Bool.false_eq_true, if_false]
      exact .inl ⟨_, rfl⟩
    · simp only [h1, if_true]
      exact .inr ⟨_, _, rfl, h2⟩
  · exact h.elim

theorem finalizeFields_good {env : Env} {fields : List Field} {fs : List FState} (h : GoodFields env fields fs) :
    ∃ r, finalizeFields env fields fs = .ok r := by
  induction fields generalizing fs with
  | nil => exact ⟨_, rfl⟩
  | cons f rest ih =>
    cases fs with
    | nil => exact h.elim
    | cons st sts =>
      unfold finalizeFields
      rcases finalizeField_good h.1 with ⟨e, h1⟩ | ⟨st', v, h1, h2⟩
      · exact ⟨.error e, by rw [h1]; rfl⟩
      · obtain ⟨r, hr⟩ := ih h.2
        rw [h1, hr]
        cases r with
        | error e => exact ⟨_, rfl⟩
        | ok vs => exact ⟨_, by simp only [onOk, h2]; rfl⟩

theorem finalize_good {env : Env} {v : DState} (h : Good env v) : ∃ r, finalize env v = .ok r := by
  cases v with
  | strct i fs =>
    obtain ⟨r, hr⟩ := finalizeFields_good h
    simp only [finalize, hr]
    cases r <;> exact ⟨_, rfl⟩
  | enm i st =>
    unfold finalize
    rcases h with ⟨h1, h2⟩ | ⟨h1, i, v, p, h2, -⟩
    · simp only [h1, Bool.false_eq_true, if_false]
      exact ⟨_, rfl⟩
    · simp only [h1, if_true, h2]
      exact ⟨_, rfl⟩

theorem totalOn_map {σ ρ ρ' : Type} {I : σ → Prop} {good : ρ → Prop} {good' : ρ' → Prop} {g : ρ → ρ'}
    {a : Action σ ρ} (h : Action.TotalOn I good a) (hg : ∀ r, good r → good' (g r)) :
    Action.TotalOn I good' (a.map g) := by
  cases a with
  | done r => exact hg _ h
  | readString k => exact fun r => hg _ (h r)
  | readTo sub k => exact ⟨h.1, fun sub r hs => hg _ (h.2 sub r hs)⟩

theorem deserTy_total (env : Env) (hT : NoText env) (ty : Ty) :
    Action.TotalOn (Good env) (fun r => ∃ x, r = .ok x) (deserTy env ty) := by
  cases ty with
  | text t =>
    intro r
    cases r with
    | error e => exact ⟨_, rfl⟩
    | ok s =>
      simp only
      have := parse_no_fault t s
      split
      · exact ⟨_, rfl⟩
      · exact ⟨_, rfl⟩
      · rename_i f h; exact absurd h (this f)
  | strct i =>
    refine ⟨good_newStruct env hT i, ?_⟩
    intro sub r hs
    cases r with
    | error e => exact ⟨_, rfl⟩
    | ok s => exact finalize_good hs
  | enm i =>
    refine ⟨good_newEnum env i, ?_⟩
    intro sub r hs
    cases r with
    | error e => exact ⟨_, rfl⟩
    | ok s => exact finalize_good hs

/-- The result of `slotInit`/`slotUpdate`: no fault, and content that fits. -/
def SlotResult (s : Slot) (r : Except Fault (Except VErr Val)) : Prop :=
  (∃ e, r = .ok (.error e)) ∨ (∃ v, r = .ok (.ok v) ∧ GoodSlot s v)

theorem slotInit_total (env : Env) (hT : NoText env) (s : Slot) :
    Action.TotalOn (Good env) (SlotResult s) (slotInit env s) := by
  refine totalOn_map (deserTy_total env hT s.ty) ?_
  rintro r ⟨x, rfl⟩
  cases x with
  | error e => exact .inl ⟨e, rfl⟩
  | ok v =>
    refine .inr ⟨_, rfl, ?_⟩
    intro h
    exact ⟨[v], by simp [h]⟩

theorem slotUpdate_total (env : Env) (hT : NoText env) (s : Slot) (v : Val) (hv : GoodSlot s v) (n : EName) :
    Action.TotalOn (Good env) (SlotResult s) (slotUpdate env s (some v) n) := by
  unfold slotUpdate
  split
  · exact .inl ⟨_, rfl⟩
  · exact .inl ⟨_, rfl⟩
  · rename_i h
    obtain ⟨l, rfl⟩ := hv h
    refine totalOn_map (deserTy_total env hT s.ty) ?_
    rintro r ⟨x, rfl⟩
    cases x with
    | error e => exact .inl ⟨e, rfl⟩
    | ok v => exact .inr ⟨_, rfl, fun _ => ⟨_, rfl⟩⟩

theorem enumElement_total (env : Env) (hT : NoText env) (e : Nat) (st : FState) (n : EName)
    (h : GoodEnum (env.enm e) st) :
    enumElement env e st n = .ok none ∨
    ∃ act, enumElement env e st n = .ok (some act) ∧
      Action.TotalOn (Good env) (fun r => ∃ st' x, r = .ok (st', x) ∧ GoodEnum (env.enm e) st') act := by
  unfold enumElement
  obtain ⟨found, hf⟩ := lookup_total (enumTable (variantNames (env.enm e).variants 0)) n
  simp only [hf]
  have hGood := h
  rcases h with ⟨h1, h2⟩ | ⟨h1, i, v, p, h2, h3, h4⟩
  · simp only [h1, Bool.false_eq_true, if_false]
    cases found with
    | none => exact .inl rfl
    | some i =>
      obtain ⟨v, hv⟩ := lookup_variant_pos hf
      simp only [hv]
      right
      split
      · rename_i hs
        refine ⟨_, rfl, ?_⟩
        simp only [writeCell, h2, Except.map]
        exact ⟨_, _, rfl, .inr ⟨rfl, i, v, none, rfl, hv, by simp [GoodVariant, hs]⟩⟩
      · rename_i s hs
        refine ⟨_, rfl, totalOn_map (slotInit_total env hT s) ?_⟩
        rintro r (⟨e, rfl⟩ | ⟨x, rfl, hx⟩)
        · exact ⟨_, _, rfl, hGood⟩
        · simp only [writeCell, h2, Except.map]
          exact ⟨_, _, rfl, .inr ⟨rfl, i, v, _, rfl, hv, by simpa [GoodVariant, hs] using hx⟩⟩
  · simp only [h1, if_true, h2, h3]
    right
    split
    · split
      · exact ⟨_, rfl, _, _, rfl, hGood⟩
      · rename_i s hs
        simp only [GoodVariant, hs] at h4
        obtain ⟨x, rfl, hx⟩ := h4
        refine ⟨_, rfl, totalOn_map (slotUpdate_total env hT s x hx n) ?_⟩
        rintro r (⟨e, rfl⟩ | ⟨y, rfl, hy⟩)
        · exact ⟨_, _, rfl, hGood⟩
        · refine ⟨_, _, rfl, .inr ⟨rfl, i, v, _, rfl, h3, by simpa [GoodVariant, hs] using hy⟩⟩
    · cases found with
      | none => exact ⟨_, rfl, _, _, rfl, hGood⟩
      | some j => exact ⟨_, rfl, _, _, rfl, hGood⟩

theorem delegate_total (env : Env) (hT : NoText env) (i : Nat) (fs : List FState) (n : EName)
    (h : GoodFields env (env.strct i).fields fs) (l : List (Nat × Nat))
    (hl : ∀ q ∈ l, ∃ f : Field, (env.strct i).fields[q.1]? = some f ∧ f.kind = .flatten q.2) :
    Action.TotalOn (Good env) (fun r => ∃ v' x, r = .ok (v', x) ∧ Good env v') (delegate env i fs n l) := by
  induction l with
  | nil => exact ⟨_, _, rfl, h⟩
  | cons q l ih =>
    obtain ⟨p, e⟩ := q
    obtain ⟨f, hf, hk⟩ := hl (p, e) List.mem_cons_self
    obtain ⟨st, hst, hg⟩ := h.get hf
    unfold delegate
    simp only at hf hk
    simp only [hst]
    simp only [GoodField, hk] at hg
    rcases enumElement_total env hT e st n hg with h1 | ⟨act, h1, h2⟩
    · rw [h1]
      exact ih fun q hq => hl q (List.mem_cons_of_mem _ hq)
    · rw [h1]
      refine totalOn_map h2 ?_
      rintro r ⟨st', x, rfl, hst'⟩
      exact ⟨_, _, rfl, h.set hf (by simpa [GoodField, hk] using hst')⟩

theorem structElement_total (env : Env) (hT : NoText env) (i : Nat) (fs : List FState) (n : EName)
    (h : GoodFields env (env.strct i).fields fs) :
    Action.TotalOn (Good env) (fun r => ∃ v' x, r = .ok (v', x) ∧ Good env v') (structElement env i fs n) := by
  unfold structElement
  obtain ⟨found, hf⟩ := lookup_total (structTable (elemNames (env.strct i).fields 0)) n
  simp only [hf]
  cases found with
  | none =>
    refine delegate_total env hT i fs n h _ ?_
    rintro ⟨p, e⟩ hq
    obtain ⟨f, -, h1, h2⟩ := flattens_mem _ _ _ _ hq
    exact ⟨f, by simpa using h1, h2⟩
  | some p =>
    obtain ⟨f, s, h1, h2⟩ := lookup_elem_pos hf
    obtain ⟨st, h3, h4⟩ := h.get h1
    simp only [GoodField, h2] at h4
    have hset : ∀ v, GoodSlot s v → Good env (.strct i (fs.set p ⟨true, some v⟩)) :=
      fun v hv => h.set h1 (by unfold GoodField; rw [h2]; exact .inr ⟨rfl, v, rfl, hv⟩)
    cases f with | mk name kind default =>
    simp only at h2
    subst h2
    simp only [h1, h3]
    rcases h4 with ⟨h4, h5⟩ | ⟨h4, v, h5, h6⟩
    · simp only [h4, Bool.false_eq_true, if_false]
      refine totalOn_map (slotInit_total env hT s) ?_
      rintro r (⟨e, rfl⟩ | ⟨x, rfl, hx⟩)
      · exact ⟨_, _, rfl, h⟩
      · simp only [writeCell, h5, Except.map]
        exact ⟨_, _, rfl, hset x hx⟩
    · simp only [h4, if_true, h5]
      refine totalOn_map (slotUpdate_total env hT s v h6 n) ?_
      rintro r (⟨e, rfl⟩ | ⟨x, rfl, hx⟩)
      · exact ⟨_, _, rfl, h⟩
      · exact ⟨_, _, rfl, hset x hx⟩

theorem structAttribute_total (env : Env) (i : Nat) (fs : List FState) (n : EName) (s : String)
    (h : GoodFields env (env.strct i).fields fs) :
    ∃ v' x, structAttribute env i fs n s = .ok (v', x) ∧ Good env v' := by
  unfold structAttribute
  obtain ⟨found, hf⟩ := lookup_total (structTable (attrNames (env.strct i).fields 0)) n
  simp only [hf]
  cases found with
  | none => exact ⟨_, _, rfl, h⟩
  | some p =>
    obtain ⟨f, o, t, h1, h2⟩ := lookup_attr_pos hf
    obtain ⟨st, h3, h4⟩ := h.get h1
    simp only [GoodField, h2] at h4
    have hset : ∀ v, Good env (.strct i (fs.set p ⟨true, some v⟩)) :=
      fun v => h.set h1 (by unfold GoodField; rw [h2]; exact .inr ⟨rfl, v, rfl⟩)
    cases f with | mk name kind default =>
    simp only at h2
    subst h2
    simp only [h1, h3]
    rcases h4 with ⟨h4, h5⟩ | ⟨h4, v, h5⟩
    · simp only [h4, Bool.false_eq_true, if_false, attrInit]
      have := parse_no_fault t s
      split
      · rename_i hh; split at hh <;> simp_all
      · exact ⟨_, _, rfl, h⟩
      · simp only [writeCell, h5, Except.map]
        exact ⟨_, _, rfl, hset _⟩
    · simp only [h4, if_true]
      exact ⟨_, _, rfl, h⟩

/-- The derived visitors never panic and never touch uninitialized memory, whatever they are given. -/
theorem derived_total (env : Env) (hT : NoText env) : TotalOn (Good env) (derivedVisitor env) where
  attr v n s h := by
    cases v with
    | strct i fs => exact structAttribute_total env i fs n s h
    | enm i st => exact ⟨_, _, rfl, h⟩
  chars v s p h := ⟨_, _, rfl, h⟩
  elem v info h := by
    cases v with
    | strct i fs => exact structElement_total env hT i fs _ h
    | enm i st =>
      simp only [derivedVisitor]
      rcases enumElement_total env hT i st info.name.expanded h with h1 | ⟨act, h1, h2⟩
      · rw [h1]
        exact ⟨_, _, rfl, h⟩
      · rw [h1]
        refine totalOn_map h2 ?_
        rintro r ⟨st', x, rfl, hst'⟩
        exact ⟨_, _, rfl, hst'⟩

/-! ## Errors of children are not swallowed -/

theorem noSwallow_map {σ ρ ρ' : Type} {bad : ρ → Prop} {bad' : ρ' → Prop} {g : ρ → ρ'} {a : Action σ ρ}
    (h : Action.NoSwallow bad a) (hg : ∀ r, bad r → bad' (g r)) : Action.NoSwallow bad' (a.map g) := by
  cases a with
  | done r => trivial
  | readString k => exact fun e => hg _ (h e)
  | readTo sub k => exact fun sub e => hg _ (h sub e)

theorem deserTy_noSwallow (env : Env) (ty : Ty) :
    Action.NoSwallow (fun r => ∃ e, r = .ok (.error e)) (deserTy env ty) := by
  cases ty with
  | text t => exact fun _ => ⟨_, rfl⟩
  | strct i => exact fun _ _ => ⟨_, rfl⟩
  | enm i => exact fun _ _ => ⟨_, rfl⟩

theorem slotInit_noSwallow (env : Env) (s : Slot) :
    Action.NoSwallow (fun r => ∃ e, r = .ok (.error e)) (slotInit env s) := by
  refine noSwallow_map (deserTy_noSwallow env s.ty) ?_
  rintro r ⟨e, rfl⟩
  exact ⟨e, rfl⟩

theorem slotUpdate_noSwallow (env : Env) (s : Slot) (c : Option Val) (n : EName) :
    Action.NoSwallow (fun r => ∃ e, r = .ok (.error e)) (slotUpdate env s c n) := by
  unfold slotUpdate
  split
  · split <;> trivial
  · split <;> trivial
  · split
    · refine noSwallow_map (deserTy_noSwallow env s.ty) ?_
      rintro r ⟨e, rfl⟩
      exact ⟨e, rfl⟩
    · trivial

theorem enumElement_noSwallow (env : Env) (e : Nat) (st : FState) (n : EName) (act)
    (h : enumElement env e st n = .ok (some act)) :
    Action.NoSwallow (fun r => ∃ v x, r = .ok (v, .error x)) act := by
  unfold enumElement at h
  simp only at h
  repeat' split at h
  all_goals try (simp at h; done)
  all_goals simp only [Except.ok.injEq, Option.some.injEq] at h; subst h
  all_goals first
    | trivial
    | (refine noSwallow_map (slotUpdate_noSwallow env _ _ _) ?_
       rintro r ⟨e, rfl⟩
       exact ⟨_, _, rfl⟩)
    | (refine noSwallow_map (slotInit_noSwallow env _) ?_
       rintro r ⟨e, rfl⟩
       exact ⟨_, _, rfl⟩)

theorem delegate_noSwallow (env : Env) (i : Nat) (fs : List FState) (n : EName) (l : List (Nat × Nat)) :
    Action.NoSwallow (fun r => ∀ v', r ≠ .ok (v', .ok ())) (delegate env i fs n l) := by
  induction l with
  | nil => trivial
  | cons q l ih =>
    unfold delegate
    split
    · trivial
    · split
      · trivial
      · exact ih
      · rename_i act h
        refine noSwallow_map (enumElement_noSwallow env _ _ _ _ h) ?_
        rintro r ⟨v, x, rfl⟩ v'
        simp [Except.map]

theorem derived_noSwallow (env : Env) : NoSwallow (derivedVisitor env) := by
  intro v info
  cases v with
  | strct i fs =>
    simp only [derivedVisitor, structElement]
    split
    · trivial
    · exact delegate_noSwallow ..
    · split
      · split
        · refine noSwallow_map (slotUpdate_noSwallow env _ _ _) ?_
          rintro r ⟨e, rfl⟩ v'
          simp
        · refine noSwallow_map (slotInit_noSwallow env _) ?_
          rintro r ⟨e, rfl⟩ v'
          simp
      · trivial
  | enm i st =>
    simp only [derivedVisitor]
    split
    · trivial
    · trivial
    · rename_i act h
      refine noSwallow_map (enumElement_noSwallow env _ _ _ _ h) ?_
      rintro r ⟨v, x, rfl⟩ v'
      simp [Except.map]

theorem deserTy_deserNoSwallow (env : Env) (ty : Ty) : DeserNoSwallow (fun _ => deserTy env ty) := by
  intro info
  have := deserTy_noSwallow env ty
  simp only
  cases h : deserTy env ty with
  | done r => trivial
  | readString k =>
    rw [h] at this
    intro e a
    obtain ⟨x, hx⟩ := this e
    rw [hx]
    simp
  | readTo sub k =>
    rw [h] at this
    intro sub e a
    obtain ⟨x, hx⟩ := this sub e
    rw [hx]
    simp

end SX
