import Verif.Spec.Gen
import Verif.Proof.Names

namespace SX.Gen
open SX.Open SX.Spec.Open SX.Spec.Gen

/-! ### Records as lists -/

theorem get_zip {β : Type} : ∀ (ks : List String) (vs : List β) (p : Nat) (k : String), ks.Nodup → ks[p]? = some k →
    get k (ks.zip vs) = vs[p]?
  | [], _, _, _, _, h => by simp at h
  | _ :: _, [], _, _, _, _ => by simp [get]
  | k0 :: ks, v :: vs, 0, k, _, h => by
    simp at h
    simp [get, h]
  | k0 :: ks, v :: vs, p + 1, k, hn, h => by
    simp at h
    have hk : k0 ≠ k := by
      rintro rfl
      exact (List.nodup_cons.mp hn).1 (List.mem_of_getElem? h)
    simp only [List.zip_cons_cons, get, if_neg hk, List.getElem?_cons_succ]
    exact get_zip ks vs p k (List.nodup_cons.mp hn).2 h

theorem get_none {β : Type} : ∀ (ks : List String) (vs : List β) (k : String), k ∉ ks → get k (ks.zip vs) = none
  | [], _, _, _ => by simp [get]
  | _ :: _, [], _, _ => by simp [get]
  | k0 :: ks, v :: vs, k, h => by
    simp only [List.mem_cons, not_or] at h
    simp only [List.zip_cons_cons, get, if_neg (Ne.symm h.1)]
    exact get_none ks vs k h.2

theorem set_zip {β : Type} (v : β) : ∀ (ks : List String) (vs : List β) (p : Nat) (k : String), ks.Nodup → ks[p]? = some k →
    set k v (ks.zip vs) = ks.zip (vs.set p v)
  | [], _, _, _, _, h => by simp at h
  | _ :: _, [], _, _, _, _ => by simp [set]
  | k0 :: ks, w :: vs, 0, k, _, h => by
    simp at h
    simp [set, h]
  | k0 :: ks, w :: vs, p + 1, k, hn, h => by
    simp at h
    have hk : k0 ≠ k := by
      rintro rfl
      exact (List.nodup_cons.mp hn).1 (List.mem_of_getElem? h)
    simp only [List.zip_cons_cons, set, if_neg hk, List.set_cons_succ]
    rw [set_zip v ks vs p k (List.nodup_cons.mp hn).2 h]

/-! ### Identifiers -/

theorem append_right_inj {a b c : String} (h : a ++ c = b ++ c) : a = b := by
  have := congrArg String.toList h
  simp only [String.toList_append] at this
  exact String.toList_inj.mp (List.append_cancel_right this)

theorem present_inj {a b : String} (h : presentName a = presentName b) : unraw a = unraw b := append_right_inj h

theorem visitor_inj {a b : String} (h : visitorName a = visitorName b) : unraw a = unraw b := append_right_inj h

theorem present_ne_visitor (a b : String) : presentName a ≠ visitorName b := by
  intro h
  have := congrArg (fun s => s.toList.getLast?) h
  simp [presentName, visitorName, String.toList_append] at this

/-- The name of the visitor's field for a field of the struct. -/
def visName (f : GField) : String :=
  match f.mode with
  | .flatten => visitorName f.ident
  | _ => presentName f.ident

theorem visName_inj {f g : GField} (h : visName f = visName g) : unraw f.ident = unraw g.ident := by
  unfold visName at h
  split at h <;> split at h
  · exact visitor_inj h
  · exact absurd h.symm (present_ne_visitor _ _)
  · exact absurd h (present_ne_visitor _ _)
  · exact present_inj h

theorem nodup_of_map {α β γ : Type} {f : α → β} {g : α → γ} {l : List α} (h : (l.map g).Nodup)
    (hi : ∀ a b, f a = f b → g a = g b) : (l.map f).Nodup := by
  rw [List.nodup_iff_pairwise_ne, List.pairwise_map] at h ⊢
  exact h.imp fun hne he => hne (hi _ _ he)

theorem visNames_nodup {fields : List GField} (h : (fields.map fun f => unraw f.ident).Nodup) : (fields.map visName).Nodup :=
  nodup_of_map h fun _ _ => visName_inj

theorem idents_nodup {fields : List GField} (h : (fields.map fun f => unraw f.ident).Nodup) :
    (fields.map fun f => f.ident).Nodup :=
  nodup_of_map h fun a b (e : a.ident = b.ident) => by rw [e]

/-! ### Tables -/

theorem insertBy_map {α β : Type} (f : α → β) (cmp : β → β → Ordering) (a : α) :
    ∀ l : List α, insertBy cmp (f a) (l.map f) = (insertBy (fun x y => cmp (f x) (f y)) a l).map f
  | [] => rfl
  | b :: l => by
    simp only [List.map_cons, insertBy]
    split
    · rw [insertBy_map f cmp a l, List.map_cons]
    · rfl

theorem sortBy_map {α β : Type} (f : α → β) (cmp : β → β → Ordering) :
    ∀ l : List α, sortBy cmp (l.map f) = (sortBy (fun x y => cmp (f x) (f y)) l).map f
  | [] => rfl
  | a :: l => by
    simp only [List.map_cons, sortBy]
    rw [sortBy_map f cmp l, insertBy_map]

/-- The field as used by the open model. -/
def oG {σ τ α : Type} (types : String → TypeImpl σ τ α) (f : GField) : OField σ τ α where
  name := f.name
  kind := match f.mode with
    | .element _ => .element (types f.ty).field
    | .attribute _ => .attribute (types f.ty).attr
    | .flatten => .flatten (types f.ty).raw
    | .text => .element (types f.ty).field
  default := if f.default then some (types f.ty).default else none

theorem oG_newField {σ τ α : Type} (types : String → TypeImpl σ τ α) (ty : String → String) (f : MField) :
    oG types (newField ty f) = oField types ty f := by
  unfold oG oField newField
  cases f.mode <;> rfl

/-- A field without its position in a table. -/
def bare (f : GField) : GField :=
  { f with mode := match f.mode with
    | .element _ => .element 0
    | .attribute _ => .attribute 0
    | .flatten => .flatten
    | .text => .text }

theorem oG_bare {σ τ α : Type} (types : String → TypeImpl σ τ α) (f : GField) : oG types (bare f) = oG types f := by
  unfold oG bare
  cases f.mode <;> rfl

theorem setPositions_get (mode : Nat → GMode) : ∀ (ps : List Nat) (i : Nat) (fields : List GField) (p : Nat), ps.Nodup →
    (∀ j, ps[j]? = some p → (setPositions mode ps i fields)[p]? = fields[p]?.map fun f => { f with mode := mode (i + j) }) ∧
    (p ∉ ps → (setPositions mode ps i fields)[p]? = fields[p]?)
  | [], i, fields, p, _ => ⟨fun j h => by simp at h, fun _ => rfl⟩
  | q :: ps, i, fields, p, hn => by
    obtain ⟨hq, hn⟩ := List.nodup_cons.mp hn
    obtain ⟨h1, h2⟩ := setPositions_get mode ps (i + 1) (fields.modify q fun f => { f with mode := mode i }) p hn
    refine ⟨fun j hj => ?_, fun hp => ?_⟩
    · cases j with
      | zero =>
        simp only [List.getElem?_cons_zero, Option.some.injEq] at hj
        subst hj
        show (setPositions mode ps (i + 1) _)[q]? = _
        rw [h2 hq, List.getElem?_modify]
        simp
      | succ j =>
        simp only [List.getElem?_cons_succ] at hj
        have hpq : q ≠ p := by
          rintro rfl
          exact hq (List.mem_of_getElem? hj)
        show (setPositions mode ps (i + 1) _)[p]? = _
        rw [h1 j hj, List.getElem?_modify, show i + 1 + j = i + (j + 1) by omega]
        simp [hpq]
    · simp only [List.mem_cons, not_or] at hp
      show (setPositions mode ps (i + 1) _)[p]? = _
      rw [h2 hp.2, List.getElem?_modify]
      simp [Ne.symm hp.1]

theorem setPositions_bare (mode : Nat → GMode) (ps : List Nat) (i : Nat) (fields : List GField) (hn : ps.Nodup)
    (hm : ∀ p ∈ ps, ∀ f, fields[p]? = some f → ∀ i, bare { f with mode := mode i } = bare f) :
    (setPositions mode ps i fields).map bare = fields.map bare := by
  apply List.ext_getElem?
  intro p
  simp only [List.getElem?_map]
  obtain ⟨h1, h2⟩ := setPositions_get mode ps i fields p hn
  by_cases hp : p ∈ ps
  · obtain ⟨j, hj⟩ := List.mem_iff_getElem?.mp hp
    rw [h1 j hj]
    cases hf : fields[p]? with
    | none => rfl
    | some f => simp [hm p hp f hf]
  · rw [h2 hp]

/-- Positions of the fields of a kind. -/
def positions (is : GMode → Bool) : List GField → Nat → List Nat
  | [], _ => []
  | f :: fs, i => if is f.mode then i :: positions is fs (i + 1) else positions is fs (i + 1)

def isElement : GMode → Bool
  | .element _ => true
  | _ => false

def isAttribute : GMode → Bool
  | .attribute _ => true
  | _ => false

theorem partition_elements : ∀ (fs : List GField) (i : Nat), (partitionFields fs i).2.1 = positions isElement fs i
  | [], _ => rfl
  | f :: fs, i => by
    simp only [partitionFields, positions]
    rw [← partition_elements fs (i + 1)]
    cases f.mode <;> simp [isElement]

theorem partition_attributes : ∀ (fs : List GField) (i : Nat), (partitionFields fs i).1 = positions isAttribute fs i
  | [], _ => rfl
  | f :: fs, i => by
    simp only [partitionFields, positions]
    rw [← partition_attributes fs (i + 1)]
    cases f.mode <;> simp [isAttribute]

theorem partition_text : ∀ (fs : List GField) (i : Nat), (∀ f ∈ fs, f.mode ≠ .text) → (partitionFields fs i).2.2 = none
  | [], _, _ => rfl
  | f :: fs, i, h => by
    have ih := partition_text fs (i + 1) fun g hg => h g (List.mem_cons_of_mem _ hg)
    have h1 := h f List.mem_cons_self
    simp only [partitionFields]
    cases hm : f.mode <;> simp_all

theorem positions_mem (is : GMode → Bool) : ∀ (fs : List GField) (i p : Nat),
    p ∈ positions is fs i ↔ i ≤ p ∧ ∃ f, fs[p - i]? = some f ∧ is f.mode = true
  | [], i, p => by simp [positions]
  | f :: fs, i, p => by
    have ih := positions_mem is fs (i + 1) p
    simp only [positions]
    by_cases hp : p = i
    · subst hp
      have : ¬ (p ∈ positions is fs (p + 1)) := fun h => by have := (ih.mp h).1; omega
      split <;> simp_all
    · have e : (i ≤ p ∧ ∃ g, (f :: fs)[p - i]? = some g ∧ is g.mode = true) ↔
          (i + 1 ≤ p ∧ ∃ g, fs[p - (i + 1)]? = some g ∧ is g.mode = true) := by
        constructor
        · rintro ⟨h, g, hg, hi⟩
          refine ⟨by omega, g, ?_, hi⟩
          rw [show p - i = (p - (i + 1)) + 1 by omega, List.getElem?_cons_succ] at hg
          exact hg
        · rintro ⟨h, g, hg, hi⟩
          refine ⟨by omega, g, ?_, hi⟩
          rw [show p - i = (p - (i + 1)) + 1 by omega, List.getElem?_cons_succ]
          exact hg
      rw [e, ← ih]
      split <;> simp [hp]

theorem positions_nodup (is : GMode → Bool) : ∀ (fs : List GField) (i : Nat), (positions is fs i).Nodup
  | [], _ => by simp [positions]
  | f :: fs, i => by
    simp only [positions]
    split
    · refine List.nodup_cons.mpr ⟨fun h => ?_, positions_nodup is fs (i + 1)⟩
      have := ((positions_mem is fs (i + 1) i).mp h).1
      omega
    · exact positions_nodup is fs (i + 1)

theorem nameAt_eq {fs gs : List GField} (h : fs.map bare = gs.map bare) : nameAt fs = nameAt gs := by
  funext p
  have := congrArg (·[p]?) h
  simp only [List.getElem?_map] at this
  unfold nameAt
  cases hf : fs[p]? <;> cases hg : gs[p]? <;> simp_all
  have := congrArg GField.name this
  simp only [bare] at this
  rw [this]

theorem elemNames_eq {σ τ α : Type} (types : String → TypeImpl σ τ α) (all : List GField) (hT : ∀ f ∈ all, f.mode ≠ .text) :
    ∀ (fs pre : List GField), all = pre ++ fs →
      (Open.elemNames (fs.map (oG types)) pre.length).map (fun p => (p.1, p.2.expanded)) =
        (positions isElement fs pre.length).map (fun p => (p, nameAt all p))
  | [], _, _ => rfl
  | f :: fs, pre, h => by
    have ih := elemNames_eq types all hT fs (pre ++ [f]) (by rw [h]; simp)
    simp only [List.length_append, List.length_cons, List.length_nil] at ih
    have hf : all[pre.length]? = some f := by rw [h]; simp
    have hne := hT f (by rw [h]; simp)
    simp only [List.map_cons, Open.elemNames, positions, oG]
    cases hm : f.mode with
    | element i => simp only [isElement, if_true, List.map_cons]; rw [← ih]; simp [nameAt, hf]
    | «attribute» i => simpa [isElement] using ih
    | flatten => simpa [isElement] using ih
    | text => exact absurd hm hne

theorem attrNames_eq {σ τ α : Type} (types : String → TypeImpl σ τ α) (all : List GField) (hT : ∀ f ∈ all, f.mode ≠ .text) :
    ∀ (fs pre : List GField), all = pre ++ fs →
      (Open.attrNames (fs.map (oG types)) pre.length).map (fun p => (p.1, p.2.expanded)) =
        (positions isAttribute fs pre.length).map (fun p => (p, nameAt all p))
  | [], _, _ => rfl
  | f :: fs, pre, h => by
    have ih := attrNames_eq types all hT fs (pre ++ [f]) (by rw [h]; simp)
    simp only [List.length_append, List.length_cons, List.length_nil] at ih
    have hf : all[pre.length]? = some f := by rw [h]; simp
    have hne := hT f (by rw [h]; simp)
    simp only [List.map_cons, Open.attrNames, positions, oG]
    cases hm : f.mode with
    | element i => simpa [isAttribute] using ih
    | «attribute» i => simp only [isAttribute, if_true, List.map_cons]; rw [← ih]; simp [nameAt, hf]
    | flatten => simpa [isAttribute] using ih
    | text => exact absurd hm hne

/-- What the tables of a description are. -/
structure Good {σ τ α : Type} (types : String → TypeImpl σ τ α) (s : GStruct) : Prop where
  noText : ∀ f ∈ s.fields, f.mode ≠ .text
  textPos : s.textFieldPos = none
  elem : ∀ i p, s.sortedElements[i]? = some p → ∃ f : GField, s.fields[p]? = some f ∧ f.mode = .element i
  elemBack : ∀ p (f : GField) i, s.fields[p]? = some f → f.mode = .element i → s.sortedElements[i]? = some p
  attr : ∀ i p, s.sortedAttributes[i]? = some p → ∃ f : GField, s.fields[p]? = some f ∧ f.mode = .attribute i
  attrBack : ∀ p (f : GField) i, s.fields[p]? = some f → f.mode = .attribute i → s.sortedAttributes[i]? = some p
  elemTable : structTable (Open.elemNames (s.fields.map (oG types)) 0) = s.sortedElements.map fun p => (p, nameAt s.fields p)
  attrTable : structTable (Open.attrNames (s.fields.map (oG types)) 0) = s.sortedAttributes.map fun p => (p, nameAt s.fields p)

theorem new_bare (ident : String) (fields : List GField) : (GStruct.new ident fields).fields.map bare = fields.map bare := by
  unfold GStruct.new
  simp only
  rw [partition_elements, partition_attributes]
  have ha : (setPositions GMode.attribute
      (sortBy (fun p q => (nameAt fields p).cmp (nameAt fields q)) (positions isAttribute fields 0)) 0 fields).map bare = fields.map bare := by
    refine setPositions_bare _ _ _ _ ((sortBy_perm _ _).nodup_iff.mpr (positions_nodup _ _ _)) fun p hp f hf i => ?_
    obtain ⟨_, g, hg, hi⟩ := (positions_mem _ _ _ _).mp ((sortBy_perm _ _).mem_iff.mp hp)
    rw [Nat.sub_zero, hf] at hg
    cases hg
    unfold bare
    cases hm : f.mode <;> simp_all [isAttribute]
  rw [← ha]
  refine setPositions_bare _ _ _ _ ((sortBy_perm _ _).nodup_iff.mpr (positions_nodup _ _ _)) fun p hp f hf i => ?_
  obtain ⟨_, g, hg, hi⟩ := (positions_mem _ _ _ _).mp ((sortBy_perm _ _).mem_iff.mp hp)
  have := congrArg (·[p]?) ha
  simp only [List.getElem?_map] at this
  rw [hf, Nat.sub_zero] at *
  rw [hg] at this
  simp only [Option.map_some, Option.some.injEq] at this
  have := congrArg GField.mode this
  simp only [bare] at this
  unfold bare
  cases hm : f.mode <;> cases hm' : g.mode <;> simp_all [isElement]

theorem bare_mode {f g : GField} (h : bare f = bare g) :
    (f.mode = .text ↔ g.mode = .text) ∧ (isElement f.mode = isElement g.mode) ∧ (isAttribute f.mode = isAttribute g.mode) := by
  have := congrArg GField.mode h
  simp only [bare] at this
  cases hm : f.mode <;> cases hm' : g.mode <;> simp_all [isElement, isAttribute]

theorem new_good {σ τ α : Type} (types : String → TypeImpl σ τ α) (ident : String) (fields : List GField)
    (hT : ∀ f ∈ fields, f.mode ≠ .text) : Good types (GStruct.new ident fields) := by
  have hb := new_bare ident fields
  have hpos := fun p : Nat => congrArg (·[p]?) hb
  simp only [List.getElem?_map] at hpos
  have hN := nameAt_eq hb
  have hO : (GStruct.new ident fields).fields.map (oG types) = fields.map (oG types) := by
    have := congrArg (List.map (oG types)) hb
    simp only [List.map_map] at this
    have e : oG types ∘ bare = oG types := funext fun f => oG_bare types f
    rwa [e] at this
  have hEn : (sortBy (fun p q => (nameAt fields p).cmp (nameAt fields q)) (positions isElement fields 0)).Nodup :=
    (sortBy_perm _ _).nodup_iff.mpr (positions_nodup _ _ _)
  have hAn : (sortBy (fun p q => (nameAt fields p).cmp (nameAt fields q)) (positions isAttribute fields 0)).Nodup :=
    (sortBy_perm _ _).nodup_iff.mpr (positions_nodup _ _ _)
  have hEs : (GStruct.new ident fields).sortedElements =
      sortBy (fun p q => (nameAt fields p).cmp (nameAt fields q)) (positions isElement fields 0) := by
    rw [← partition_elements]; rfl
  have hAs : (GStruct.new ident fields).sortedAttributes =
      sortBy (fun p q => (nameAt fields p).cmp (nameAt fields q)) (positions isAttribute fields 0) := by
    rw [← partition_attributes]; rfl
  have hF : (GStruct.new ident fields).fields = setPositions .element (GStruct.new ident fields).sortedElements 0
      (setPositions .attribute (GStruct.new ident fields).sortedAttributes 0 fields) := rfl
  have memE : ∀ p, p ∈ (GStruct.new ident fields).sortedElements ↔ ∃ f, fields[p]? = some f ∧ isElement f.mode = true := by
    intro p
    rw [hEs, (sortBy_perm _ _).mem_iff, positions_mem]
    simp
  have memA : ∀ p, p ∈ (GStruct.new ident fields).sortedAttributes ↔ ∃ f, fields[p]? = some f ∧ isAttribute f.mode = true := by
    intro p
    rw [hAs, (sortBy_perm _ _).mem_iff, positions_mem]
    simp
  rw [← hEs] at hEn
  rw [← hAs] at hAn
  have hElem : ∀ i p, (GStruct.new ident fields).sortedElements[i]? = some p →
      ∃ f : GField, (GStruct.new ident fields).fields[p]? = some f ∧ f.mode = .element i := by
    intro i p hi
    obtain ⟨f, hf, hm⟩ := (memE p).mp (List.mem_of_getElem? hi)
    have hna : p ∉ (GStruct.new ident fields).sortedAttributes := by
      intro h
      obtain ⟨g, hg, hm'⟩ := (memA p).mp h
      rw [hf] at hg
      cases hg
      cases hx : f.mode <;> simp_all [isElement, isAttribute]
    rw [hF, (setPositions_get _ _ _ _ p hEn).1 i hi, (setPositions_get _ _ _ _ p hAn).2 hna, hf]
    exact ⟨_, rfl, by simp⟩
  have hAttr : ∀ i p, (GStruct.new ident fields).sortedAttributes[i]? = some p →
      ∃ f : GField, (GStruct.new ident fields).fields[p]? = some f ∧ f.mode = .attribute i := by
    intro i p hi
    obtain ⟨f, hf, hm⟩ := (memA p).mp (List.mem_of_getElem? hi)
    have hna : p ∉ (GStruct.new ident fields).sortedElements := by
      intro h
      obtain ⟨g, hg, hm'⟩ := (memE p).mp h
      rw [hf] at hg
      cases hg
      cases hx : f.mode <;> simp_all [isElement, isAttribute]
    rw [hF, (setPositions_get _ _ _ _ p hEn).2 hna, (setPositions_get _ _ _ _ p hAn).1 i hi, hf]
    exact ⟨_, rfl, by simp⟩
  refine ⟨?_, ?_, hElem, ?_, hAttr, ?_, ?_, ?_⟩
  · intro f hf ht
    obtain ⟨p, hp⟩ := List.mem_iff_getElem?.mp hf
    have := hpos p
    rw [hp] at this
    cases hg : fields[p]? with
    | none => rw [hg] at this; simp at this
    | some g =>
      rw [hg] at this
      simp only [Option.map_some, Option.some.injEq] at this
      exact hT g (List.mem_of_getElem? hg) ((bare_mode this).1.mp ht)
  · exact partition_text fields 0 hT
  · intro p f i hf hm
    have := hpos p
    rw [hf] at this
    cases hg : fields[p]? with
    | none => rw [hg] at this; simp at this
    | some g =>
      rw [hg] at this
      simp only [Option.map_some, Option.some.injEq] at this
      have hp : p ∈ (GStruct.new ident fields).sortedElements :=
        (memE p).mpr ⟨g, hg, by rw [← (bare_mode this).2.1, hm]; rfl⟩
      obtain ⟨j, hj⟩ := List.mem_iff_getElem?.mp hp
      obtain ⟨f', hf', hm'⟩ := hElem j p hj
      rw [hf] at hf'
      cases hf'
      rw [hm] at hm'
      cases hm'
      exact hj
  · intro p f i hf hm
    have := hpos p
    rw [hf] at this
    cases hg : fields[p]? with
    | none => rw [hg] at this; simp at this
    | some g =>
      rw [hg] at this
      simp only [Option.map_some, Option.some.injEq] at this
      have hp : p ∈ (GStruct.new ident fields).sortedAttributes :=
        (memA p).mpr ⟨g, hg, by rw [← (bare_mode this).2.2, hm]; rfl⟩
      obtain ⟨j, hj⟩ := List.mem_iff_getElem?.mp hp
      obtain ⟨f', hf', hm'⟩ := hAttr j p hj
      rw [hf] at hf'
      cases hf'
      rw [hm] at hm'
      cases hm'
      exact hj
  · rw [hO, hN, hEs]
    unfold structTable
    rw [show (0 : Nat) = ([] : List GField).length from rfl, elemNames_eq types fields hT fields [] rfl, sortBy_map]
  · rw [hO, hN, hAs]
    unfold structTable
    rw [show (0 : Nat) = ([] : List GField).length from rfl, attrNames_eq types fields hT fields [] rfl, sortBy_map]

end SX.Gen
