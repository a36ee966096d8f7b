import Verif.Proof.GenStruct

/-
The code generated for an enum does what `Model/Open.lean` says.
-/
namespace SX.Gen
open SX.Open SX.Spec.Open SX.Spec.Gen

variable {σ τ α : Type}

/-- The variants with their numbers. -/
def numbered : List MVariant → Nat → List (Nat × MVariant)
  | [], _ => []
  | v :: vs, k => (k, v) :: numbered vs (k + 1)

theorem numbered_mem : ∀ (vs : List MVariant) (k p : Nat) (v : MVariant), (p, v) ∈ numbered vs k ↔ k ≤ p ∧ vs[p - k]? = some v
  | [], k, p, v => by simp [numbered]
  | w :: vs, k, p, v => by
    simp only [numbered, List.mem_cons, Prod.mk.injEq, numbered_mem vs (k + 1) p v]
    constructor
    · rintro (⟨rfl, rfl⟩ | ⟨h1, h2⟩)
      · simp
      · refine ⟨by omega, ?_⟩
        rw [show p - k = p - (k + 1) + 1 by omega, List.getElem?_cons_succ]
        exact h2
    · rintro ⟨h1, h2⟩
      by_cases hp : p = k
      · subst hp
        simp only [Nat.sub_self, List.getElem?_cons_zero, Option.some.injEq] at h2
        exact Or.inl ⟨rfl, h2.symm⟩
      · right
        refine ⟨by omega, ?_⟩
        rw [show p - k = p - (k + 1) + 1 by omega, List.getElem?_cons_succ] at h2
        exact h2

/-- The variants with their numbers, in the order of the table. -/
def order (vs : List MVariant) : List (Nat × MVariant) :=
  sortBy (fun a b => a.2.name.declared.cmpOpt b.2.name.declared) (numbered vs 0)

theorem order_mem {vs : List MVariant} {p : Nat} {v : MVariant} : (p, v) ∈ order vs ↔ vs[p]? = some v := by
  unfold order
  rw [(sortBy_perm _ _).mem_iff, numbered_mem]
  simp

theorem order_variants (ident : String) (ty : String → String) (e : MEnum) :
    (GEnum.ofDescribed ident ty e).variants = (order e.variants).map fun x => newVariant ty x.2 := by
  unfold GEnum.ofDescribed GEnum.new order
  simp only
  have h : ∀ (vs : List MVariant) k, vs.map (newVariant ty) = (numbered vs k).map fun x => newVariant ty x.2 := by
    intro vs
    induction vs with
    | nil => intro k; rfl
    | cons v vs ih => intro k; simp only [List.map_cons, numbered, ih (k + 1)]
  rw [h e.variants 0, sortBy_map (fun x : Nat × MVariant => newVariant ty x.2) (fun a b => a.name.cmpOpt b.name)]
  rfl

theorem order_table (types : String → TypeImpl σ τ α) (ty : String → String) (vs : List MVariant) :
    enumTable (Open.variantNames (vs.map (oVariant types ty)) 0) = (order vs).map fun x => (x.1, x.2.name.declared.expanded) := by
  unfold enumTable order
  have h : ∀ (vs : List MVariant) k, Open.variantNames (vs.map (oVariant types ty)) k = (numbered vs k).map fun x => (x.1, x.2.name.declared) := by
    intro vs
    induction vs with
    | nil => intro k; rfl
    | cons v vs ih => intro k; simp only [List.map_cons, Open.variantNames, numbered, ih (k + 1)]; rfl
  rw [h vs 0, sortBy_map (fun x : Nat × MVariant => (x.1, x.2.name.declared)) (fun a b => a.2.cmpOpt b.2), List.map_map]
  rfl

/-- The name of the variant of the given number. -/
def variantIdent (vs : List MVariant) (i : Nat) : String :=
  match vs[i]? with
  | some v => v.ident
  | none => ""

/-- A value, its variant named instead of numbered. -/
def named (vs : List MVariant) (x : Nat × Option α) : String × Option α := (variantIdent vs x.1, x.2)

def encodeEnum (vs : List MVariant) (st : OEnum α) : GEState α where
  initialized := st.initialized
  cell := st.cell.map (named vs)

/-- The generated program of an enum. -/
def eprg (types : String → TypeImpl σ τ α) (ident : String) (ty : String → String) (e : MEnum) : EPrg σ τ α where
  code := enumCode (GEnum.ofDescribed ident ty e)
  payload v := some (ty v)
  types := types

section
variable (types : String → TypeImpl σ τ α) (ident : String) (ty : String → String) (e : MEnum)

theorem elements_eq : (eprg types ident ty e).code.elements = (order e.variants).map fun x => x.2.name.declared.expanded := by
  unfold eprg enumCode
  simp only [order_variants, List.map_map]
  rfl

theorem runInit_scan (st : GEState α) (info : ElemInfo) (found : Option Nat) (p : Option α) (c : EPrg σ τ α) {i : Nat} {v : MVariant} :
    ∀ (l : List (Nat × MVariant)) (k j : Nat), l[j]? = some (i, v) → (∀ (x : Nat × MVariant) j', l[j']? = some x → x.2.ident = v.ident → j' = j) →
    c.runInit st info found v.ident p (initArms (l.map fun x => newVariant ty x.2) k) =
      c.runInit st info found v.ident p [{ variant := v.ident, payload := v.payload, index := k + j }]
  | [], _, _, h, _ => by simp at h
  | x :: l, k, 0, h, _ => by
    simp only [List.getElem?_cons_zero, Option.some.injEq] at h
    subst h
    have hp : (newVariant ty v).ty.isSome = v.payload := by
      unfold newVariant; cases v.payload <;> rfl
    simp only [List.map_cons, initArms, EPrg.runInit, hp, show (newVariant ty v).ident = v.ident from rfl, Nat.add_zero, if_true]
  | x :: l, k, j + 1, h, hu => by
    simp only [List.getElem?_cons_succ] at h
    have hne : x.2.ident ≠ v.ident := by
      intro hx
      have := hu x 0 (by simp) hx
      omega
    have ih := runInit_scan st info found p c l (k + 1) j h (by
      intro y j' hy hyv
      have := hu y (j' + 1) (by simpa using hy) hyv
      omega)
    rw [show k + 1 + j = k + (j + 1) by omega] at ih
    rw [← ih]
    simp only [List.map_cons, initArms]
    exact if_neg hne

theorem runUninit_scan (st : GEState α) (info : ElemInfo) (c : EPrg σ τ α) {i : Nat} {v : MVariant} :
    ∀ (l : List (Nat × MVariant)) (k j : Nat), l[j]? = some (i, v) →
    c.runUninit st info (k + j) (uninitArms (l.map fun x => newVariant ty x.2) k) =
      c.runUninit st info (k + j) [{ index := k + j, variant := v.ident, payload := v.payload }]
  | [], _, _, h => by simp at h
  | x :: l, k, 0, h => by
    simp only [List.getElem?_cons_zero, Option.some.injEq] at h
    subst h
    have hp : (newVariant ty v).ty.isSome = v.payload := by
      unfold newVariant; cases v.payload <;> rfl
    simp only [List.map_cons, uninitArms, EPrg.runUninit, hp, show (newVariant ty v).ident = v.ident from rfl, Nat.add_zero, if_true]
  | x :: l, k, j + 1, h => by
    simp only [List.getElem?_cons_succ] at h
    have ih := runUninit_scan st info c l (k + 1) j h
    rw [show k + 1 + j = k + (j + 1) by omega] at ih
    rw [← ih]
    simp only [List.map_cons, uninitArms]
    exact if_neg (by simp only; omega)

variable (hn : (e.variants.map fun v => v.ident).Nodup)
include hn

theorem order_ident {j j' : Nat} {x y : Nat × MVariant} (h : (order e.variants)[j]? = some x) (h' : (order e.variants)[j']? = some y)
    (hi : x.2.ident = y.2.ident) : j = j' := by
  have hmap : ∀ (vs : List MVariant) k, (numbered vs k).map (fun x => x.2.ident) = vs.map fun v => v.ident := by
    intro vs
    induction vs with
    | nil => intro k; rfl
    | cons v vs ih => intro k; simp only [List.map_cons, numbered, ih (k + 1)]
  have nd : ((order e.variants).map fun x => x.2.ident).Nodup := by
    have hp : ((order e.variants).map fun x => x.2.ident).Perm (e.variants.map fun v => v.ident) := by
      rw [← hmap e.variants 0]
      exact (sortBy_perm _ _).map _
    exact hp.nodup_iff.mpr hn
  obtain ⟨hj, _⟩ := List.getElem?_eq_some_iff.mp h
  refine (List.getElem?_inj (by simpa using hj) nd).mp ?_
  simp [h, h', hi]

theorem enum_element_eq (st : OEnum α) (info : ElemInfo) (hst : Open.EnumOk (e.variants.map (oVariant types ty)) st) :
    (eprg types ident ty e).element (encodeEnum e.variants st) info =
      (Open.enumElement (e.variants.map (oVariant types ty)) st info).map (mapOffer (encodeEnum e.variants)) := by
  unfold EPrg.element Open.enumElement lookup
  rw [order_table, List.map_map, elements_eq]
  simp only [Function.comp_def]
  obtain ⟨r, hr, hb⟩ := find_total ((order e.variants).map fun x => x.2.name.declared.expanded) info.name.expanded
  rw [hr]
  obtain ⟨ini, cell⟩ := st
  rcases hst with ⟨h1, h2⟩ | ⟨h1, i, v, p, h2, h3, h4⟩
  · simp only at h1 h2
    subst h1 h2
    cases r with
    | none => rfl
    | some j =>
      have hj := hb j rfl
      simp only [List.length_map] at hj
      obtain ⟨⟨p, w⟩, hw⟩ : ∃ x, (order e.variants)[j]? = some x := ⟨_, List.getElem?_eq_getElem hj⟩
      have hpw : e.variants[p]? = some w := order_mem.mp (List.mem_of_getElem? hw)
      have hs := runUninit_scan ty (encodeEnum e.variants ⟨false, none⟩) info (eprg types ident ty e) (order e.variants) 0 j hw
      rw [Nat.zero_add] at hs
      have hcode : (eprg types ident ty e).code.uninitialized = uninitArms ((order e.variants).map fun x => newVariant ty x.2) 0 := by
        unfold eprg enumCode
        simp only [order_variants]
      simp only [encodeEnum, Bool.false_eq_true, if_false, hcode] at hs ⊢
      rw [hs]
      simp only [List.getElem?_map, hw, Option.map_some, hpw, EPrg.runUninit, if_true, oVariant]
      have hid : variantIdent e.variants p = w.ident := by unfold variantIdent; rw [hpw]
      cases hpay : w.payload with
      | false =>
        simp only [Bool.false_eq_true, if_false]
        simp [Open.write, Except.map, mapOffer, Action.map, encodeEnum, named, hid]
      | true =>
        simp only [if_true, EPrg.typeOf, eprg]
        simp only [Except.map, mapOffer]
        congr 2
        cases (types (ty w.ident)).field.init info with
        | done r => rcases r with a | e | _ <;> simp [Action.map, Open.write, Except.map, encodeEnum, named, hid]
        | readString k =>
          simp only [Action.map, Action.readString.injEq]
          funext x
          rcases k x with a | e | _ <;> simp [Open.write, Except.map, encodeEnum, named, hid]
        | readTo sub k =>
          simp only [Action.map, Action.readTo.injEq, true_and]
          funext x y
          rcases k x y with a | e | _ <;> simp [Open.write, Except.map, encodeEnum, named, hid]
  · simp only at h1 h2
    subst h1 h2
    rw [List.getElem?_map] at h3
    rcases hi : e.variants[i]? with _ | w
    · rw [hi] at h3; cases h3
    · rw [hi] at h3
      simp only [Option.map_some, Option.some.injEq] at h3
      subst h3
      have hid : variantIdent e.variants i = w.ident := by unfold variantIdent; rw [hi]
      obtain ⟨j, hj⟩ := List.getElem?_of_mem (order_mem.mpr hi)
      have hs := runInit_scan ty (encodeEnum e.variants ⟨true, some (i, p)⟩) info r p (eprg types ident ty e) (order e.variants) 0 j hj
        (fun x j' hx hxv => order_ident e hn hx hj hxv)
      rw [Nat.zero_add] at hs
      have hcode : (eprg types ident ty e).code.initialized = initArms ((order e.variants).map fun x => newVariant ty x.2) 0 := by
        unfold eprg enumCode
        simp only [order_variants]
      simp only [encodeEnum, Option.map_some, named, hid, if_true, hcode] at hs ⊢
      rw [hs]
      simp only [EPrg.runInit, if_true, elements_eq, List.getElem?_map, hj, Option.map_some, EPrg.typeOf,
        show ∀ v, (eprg types ident ty e).payload v = some (ty v) from fun _ => rfl, show (eprg types ident ty e).types = types from rfl]
      have hfound : ∀ k q x, (order e.variants)[k]? = some (q, x) → (k = j ↔ q = i) := by
        intro k q x hk
        constructor
        · rintro rfl
          rw [hj] at hk
          cases hk
          rfl
        · rintro rfl
          have := order_mem.mp (List.mem_of_getElem? hk)
          rw [hi] at this
          cases this
          exact order_ident e hn hk hj rfl
      have h5 : w.payload = p.isSome := by
        rw [h4]; unfold oVariant; cases w.payload <;> rfl
      cases r with
      | none =>
        simp only [List.getElem?_map, hi, Option.map_some, reduceCtorEq, if_false, h5, if_true]
        simp [Except.map, mapOffer, Action.map, encodeEnum, named, hid]
      | some k =>
        have hk := hb k rfl
        simp only [List.length_map] at hk
        obtain ⟨⟨q, x⟩, hx⟩ : ∃ x, (order e.variants)[k]? = some x := ⟨_, List.getElem?_eq_getElem hk⟩
        have hq := hfound k q x hx
        simp only [List.getElem?_map, hx, hi, Option.map_some, Option.some.injEq]
        by_cases hkj : k = j
        · rw [if_pos hkj, if_pos (hq.mp hkj)]
          cases p with
          | none =>
            simp only [Option.isSome_none] at h5
            simp only [h5, oVariant, Bool.false_eq_true, if_false]
            simp [Except.map, mapOffer, Action.map, encodeEnum, named, hid]
          | some a =>
            simp only [Option.isSome_some] at h5
            simp only [h5, oVariant, if_true]
            simp only [Except.map, mapOffer]
            congr 2
            cases (types (ty w.ident)).field.update a info with
            | done r => simp [Action.map, encodeEnum, named, hid]
            | readString k => simp [Action.map, encodeEnum, named, hid]
            | readTo sub k => simp [Action.map, encodeEnum, named, hid]
        · rw [if_neg hkj, if_neg fun h => hkj (hq.mpr h), if_pos h5]
          simp [Except.map, mapOffer, Action.map, encodeEnum, named, hid, oVariant]

theorem enum_alike : Alike (named e.variants) (enumRaw ident (e.variants.map (oVariant types ty))) (eprg types ident ty e).raw := by
  refine alike_of_hom (encodeEnum e.variants) (Open.EnumOk (e.variants.map (oVariant types ty))) (.inl ⟨rfl, rfl⟩) rfl ?_ ?_ ?_ ?_ ?_ ?_
  · intro t c t' ht hs
    cases c with
    | attr n v => cases hs; exact ht
    | chars v pos => cases hs; exact ht
    | elem info s =>
      simp only [step, enumRaw] at hs
      rcases Open.enumElement_ok _ t info s ht with h | ⟨a, st', x, h1, h2, h3⟩
      · rw [h] at hs
        cases hs
        exact ht
      · rw [h1] at hs
        simp only [h2, Except.map, Except.ok.injEq] at hs
        rw [← hs]
        exact h3
  · intro t n v _; rfl
  · intro t v pos _; rfl
  · intro t info ht; exact enum_element_eq types ident ty e hn t info ht
  · intro t d ht
    show EPrg.finalize _ _ _ = (Open.enumFinalize ident t d).map _
    unfold EPrg.finalize Open.enumFinalize
    rcases ht with ⟨h1, h2⟩ | ⟨h1, _⟩
    · obtain ⟨ini, cell⟩ := t
      simp only at h1 h2
      subst h1 h2
      rcases d with _ | d | x | _
      · rfl
      · rfl
      · exact x.elim
      · rfl
    · simp only [encodeEnum, h1, if_true]
      simp [Except.map, h1]
  · intro t; rfl

end

end SX.Gen
