import Verif.Spec.Copy
import Verif.Proof.WriterDoc

namespace SX.Copy
open SX Spec

/-- Whatever these children look like, they weigh at most `n`. -/
def Bound (env : Env) (a b : Nat) (l : List Item) (n : Nat) : Prop := ∀ g, Shows env l g → g.weigh a b ≤ n

section
variable {env : Env} {a b : Nat}

theorem Bound.mono {l : List Item} {n m : Nat} (h : Bound env a b l n) (hm : n ≤ m) : Bound env a b l m :=
  fun g hg => Nat.le_trans (h g hg) hm

theorem bound_nil (n : Nat) : Bound env a b [] n := by
  intro g hg
  cases hg
  exact Nat.zero_le _

theorem bound_cons {x : Item} {l : List Item} {n m : Nat} (h1 : Bound env a b [x] n) (h2 : Bound env a b l m) : Bound env a b (x :: l) (n + m) := by
  intro g hg
  cases hg with
  | unit r =>
    have k1 := h1 _ (.unit .nil)
    have k2 := h2 _ r
    simp only [EForest.weigh] at k1 ⊢
    omega
  | text ht r =>
    have k1 := h1 _ (.text ht .nil)
    have k2 := h2 _ r
    simp only [EForest.weigh] at k1 ⊢
    omega
  | strct hc r =>
    have k1 := h1 _ (.strct hc .nil)
    have k2 := h2 _ r
    simp only [EForest.weigh] at k1 ⊢
    omega
  | enm hc r =>
    have k1 := h1 _ (.enm hc .nil)
    have k2 := h2 _ r
    simp only [EForest.weigh] at k1 ⊢
    omega

theorem shows_split {l l' : List Item} {g : EForest} (h : Shows env (l ++ l') g) :
    ∃ g1 g2, Shows env l g1 ∧ Shows env l' g2 ∧ g.weigh a b = g1.weigh a b + g2.weigh a b := by
  induction l generalizing g with
  | nil => exact ⟨.nil, g, .nil, h, by simp [EForest.weigh]⟩
  | cons x l ih =>
    rw [List.cons_append] at h
    cases h with
    | unit r =>
      obtain ⟨g1, g2, h1, h2, hw⟩ := ih r
      exact ⟨_, g2, .unit h1, h2, by simp only [EForest.weigh, hw]; omega⟩
    | text ht r =>
      obtain ⟨g1, g2, h1, h2, hw⟩ := ih r
      exact ⟨_, g2, .text ht h1, h2, by simp only [EForest.weigh, hw]; omega⟩
    | strct hc r =>
      obtain ⟨g1, g2, h1, h2, hw⟩ := ih r
      exact ⟨_, g2, .strct hc h1, h2, by simp only [EForest.weigh, hw]; omega⟩
    | enm hc r =>
      obtain ⟨g1, g2, h1, h2, hw⟩ := ih r
      exact ⟨_, g2, .enm hc h1, h2, by simp only [EForest.weigh, hw]; omega⟩

theorem bound_append {l l' : List Item} {n m : Nat} (h : Bound env a b l n) (h' : Bound env a b l' m) : Bound env a b (l ++ l') (n + m) := by
  intro g hg
  obtain ⟨g1, g2, h1, h2, hw⟩ := shows_split (a := a) (b := b) hg
  have k1 := h _ h1
  have k2 := h' _ h2
  omega

/-! ### Children with what they weigh -/

/-- What these weigh together. -/
def total (ks : List (Kid × Nat)) : Nat := (ks.map Prod.snd).sum

@[simp] theorem total_nil : total [] = 0 := rfl
@[simp] theorem total_cons (k : Kid × Nat) (ks : List (Kid × Nat)) : total (k :: ks) = k.2 + total ks := by simp [total]

theorem total_filter (p : Kid × Nat → Bool) (ks : List (Kid × Nat)) : total (ks.filter p) + total (ks.filter fun k => !p k) = total ks := by
  induction ks with
  | nil => rfl
  | cons k ks ih => by_cases hp : p k = true <;> simp [List.filter_cons, hp] <;> omega

theorem total_filter_le (p : Kid × Nat → Bool) (ks : List (Kid × Nat)) : total (ks.filter p) ≤ total ks := by
  have := total_filter p ks
  omega

/-- Each child, written as a value it was read as, weighs no more than it did. -/
def Heavy (env : Env) (a b : Nat) (ks : List (Kid × Nat)) : Prop :=
  ∀ k ∈ ks, a ≤ k.2 ∧ ∀ ty v n, k.1.as ty = some v → Bound env a b [{ name := n, value := some (ty, v) }] k.2

theorem Heavy.filter {ks : List (Kid × Nat)} (h : Heavy env a b ks) (p : Kid × Nat → Bool) : Heavy env a b (ks.filter p) :=
  fun k hk => h k (List.mem_filter.mp hk).1

theorem allAs_bound (ty : Ty) (n : EName) (ks : List (Kid × Nat)) (h : Heavy env a b ks) (vs : List Val) (hv : allAs ty (ks.map Prod.fst) = some vs) :
    Bound env a b (vs.map fun x => { name := n, value := some (ty, x) }) (total ks) := by
  induction ks generalizing vs with
  | nil => simp only [List.map_nil, allAs, Option.some.injEq] at hv; subst hv; exact bound_nil _
  | cons k ks ih =>
    simp only [List.map_cons, allAs] at hv
    split at hv
    · rename_i v vs' hk hks
      simp only [Option.some.injEq] at hv
      subst hv
      rw [total_cons]
      exact bound_cons ((h k (List.mem_cons_self ..)).2 _ _ _ hk) (ih (fun x hx => h x (List.mem_cons_of_mem _ hx)) _ hks)
    · simp at hv

theorem slot_bound (s : Slot) (absent : Option Val) (n : EName) (ks : List (Kid × Nat)) (h : Heavy env a b ks) (v : Val) (w : Nat)
    (ha : ∀ d, absent = some d → Bound env a b (fieldItems s n d) w) (hv : slotValue s absent (ks.map Prod.fst) = some v) :
    Bound env a b (fieldItems s n v) (total ks + w) := by
  cases ks with
  | nil => simpa using ha v hv
  | cons k ks =>
    simp only [List.map_cons, slotValue] at hv
    have hk := h k (List.mem_cons_self ..)
    refine Bound.mono (n := total (k :: ks)) ?_ (by omega)
    rw [total_cons]
    split at hv
    · rename_i hc
      split at hv
      · simp only [fieldItems, hc, valuesOf, List.map_cons, List.map_nil]
        exact Bound.mono (hk.2 _ _ _ hv) (by omega)
      · simp at hv
    · rename_i hc
      split at hv
      · simp only [Option.map_eq_some_iff] at hv
        obtain ⟨x, hx, rfl⟩ := hv
        simp only [fieldItems, hc, valuesOf, List.map_cons, List.map_nil]
        exact Bound.mono (hk.2 _ _ _ hx) (by omega)
      · simp at hv
    · rename_i hc
      simp only [Option.map_eq_some_iff] at hv
      obtain ⟨x, hx, rfl⟩ := hv
      simp only [fieldItems, hc, valuesOf]
      have := allAs_bound (env := env) (a := a) (b := b) s.ty n (k :: ks) h x hx
      rwa [total_cons] at this

/-- The children that an enum knows. -/
def known (d : EnumDef) (ks : List (Kid × Nat)) : List (Kid × Nat) := ks.filter fun k => (variantOf d k.1.name).isSome

theorem choices_known (d : EnumDef) (ks : List (Kid × Nat)) : (choices d (ks.map Prod.fst)).map Prod.snd = (known d ks).map Prod.fst := by
  induction ks with
  | nil => rfl
  | cons k ks ih =>
    simp only [choices, known, List.map_cons, List.filterMap_cons, List.filter_cons] at ih ⊢
    cases hv : variantOf d k.1.name with
    | none => simpa using ih
    | some i => simpa using ih

theorem enum_bound (d : EnumDef) (ks : List (Kid × Nat)) (h : Heavy env a b ks) (v : Val) (hv : enumValue d (ks.map Prod.fst) = some v) :
    Bound env a b (variantItems d v) (total (known d ks)) := by
  have hch := choices_known d ks
  have hh : Heavy env a b (known d ks) := h.filter _
  unfold enumValue at hv
  split at hv
  · simp at hv
  · rename_i i k rest hc
    rw [hc] at hch
    split at hv
    · split at hv
      · simp at hv
      · rename_i w hw
        split at hv
        · rename_i hs
          simp only [Option.some.injEq] at hv
          subst hv
          simp only [variantItems, hw, hs]
          split
          · exact bound_nil _
          · cases hkn : known d ks with
            | nil => rw [hkn] at hch; simp at hch
            | cons k0 rest0 =>
              have h0 := (hh k0 (by rw [hkn]; exact List.mem_cons_self ..)).1
              intro g hg
              cases hg with
              | unit r =>
                cases r
                simp only [EForest.weigh, total_cons, List.length_nil]
                omega
        · rename_i s hs
          simp only [Option.map_eq_some_iff] at hv
          obtain ⟨p, hp, rfl⟩ := hv
          simp only [variantItems, hw, hs]
          split
          · exact bound_nil _
          · simp only [List.map_cons] at hch
            rw [hch] at hp
            have := slot_bound (env := env) (a := a) (b := b) s none w.name.expanded (known d ks) hh p 0 (by simp) hp
            simpa using this
    · simp at hv

/-! ### Structs -/

theorem named_fst (n : EName) (ks : List (Kid × Nat)) : named n (ks.map Prod.fst) = (ks.filter fun k => k.1.name == n).map Prod.fst := by
  simp [named, List.filter_map, Function.comp_def]

theorem strangers_fst (fields : List Field) (ks : List (Kid × Nat)) :
    strangers fields (ks.map Prod.fst) = (ks.filter fun k => !declaredElem fields k.1.name).map Prod.fst := by
  simp [strangers, List.filter_map, Function.comp_def]

/-- `past`, with weights. -/
def pastW (env : Env) : List Nat → List (Kid × Nat) → List (Kid × Nat)
  | [], ks => ks
  | e :: es, ks => pastW env es (ks.takeWhile fun k => (variantOf (env.enm e) k.1.name).isNone)

theorem past_fst (es : List Nat) (ks : List (Kid × Nat)) : past env es (ks.map Prod.fst) = (pastW env es ks).map Prod.fst := by
  induction es generalizing ks with
  | nil => rfl
  | cons e es ih =>
    simp only [past, pastW, ← ih]
    rw [List.takeWhile_map]
    rfl

theorem pastW_append (es es' : List Nat) (ks : List (Kid × Nat)) : pastW env (es ++ es') ks = pastW env es' (pastW env es ks) := by
  induction es generalizing ks with
  | nil => rfl
  | cons e es ih => simp only [List.cons_append, pastW, ih]

theorem heavy_takeWhile {ks : List (Kid × Nat)} (h : Heavy env a b ks) (p : Kid × Nat → Bool) : Heavy env a b (ks.takeWhile p) :=
  fun k hk => h k ((List.takeWhile_sublist p).mem hk)

theorem heavy_past (es : List Nat) {ks : List (Kid × Nat)} (h : Heavy env a b ks) : Heavy env a b (pastW env es ks) := by
  induction es generalizing ks with
  | nil => exact h
  | cons e es ih => exact ih (heavy_takeWhile h _)

theorem known_rest (d : EnumDef) (ks : List (Kid × Nat)) :
    total (known d ks) + total (ks.takeWhile fun k => (variantOf d k.1.name).isNone) ≤ total ks := by
  induction ks with
  | nil => simp [known]
  | cons k ks ih =>
    have h2 := total_filter_le (fun k => (variantOf d k.1.name).isSome) ks
    simp only [known, List.filter_cons, List.takeWhile_cons] at ih ⊢
    cases hv : variantOf d k.1.name <;> simp <;> omega

/-- The children of the flattened fields weigh no more than those that get to the first of them. -/
theorem flats_bound (all : List Field) (bd : Body) (ks : List (Kid × Nat)) (hb : strangers all bd.kids = ks.map Prod.fst) (h : Heavy env a b ks) (earlier : List Nat) (fs : List Field) (vs : List Val)
    (hv : fieldsValue env all bd earlier fs = some vs) :
    Bound env a b ((fs.zip vs).flatMap fun x =>
      match x.1.kind with
      | .flatten e => variantItems (env.enm e) x.2
      | _ => []) (total (pastW env earlier ks)) := by
  induction fs generalizing earlier vs with
  | nil => exact bound_nil _
  | cons f fs ih =>
    unfold fieldsValue at hv
    split at hv
    · rename_i v vs' h1 h2
      simp only [Option.some.injEq] at hv
      subst hv
      have key := ih _ _ h2
      simp only [List.zip_cons_cons, List.flatMap_cons]
      cases hk : f.kind with
      | flatten e =>
        simp only [fieldValue, hk, hb, past_fst] at h1
        simp only [flatTypes, hk, pastW_append, pastW] at key
        have := enum_bound _ _ (heavy_past earlier h) _ h1
        exact Bound.mono (bound_append this key) (known_rest _ _)
      | element s => simpa [flatTypes, hk] using key
      | «attribute» o t => simpa [flatTypes, hk] using key
      | text t => simpa [flatTypes, hk] using key
    · simp at hv

/-- What the declared defaults of these fields may weigh. -/
def filled (w : Field → Nat) (fs : List Field) : Nat := ((fs.filter fun f => f.default.isSome).map w).sum

/-- What the children of the element fields weigh. -/
def namedTotal (ks : List (Kid × Nat)) (fs : List Field) : Nat :=
  (fs.map fun f =>
    match f.kind with
    | .element _ => total (ks.filter fun k => k.1.name == f.name.expanded)
    | _ => 0).sum

/-- The part of `filled` that is for element fields, and for the others. -/
def isElem (f : Field) : Bool :=
  match f.kind with
  | .element _ => true
  | _ => false

theorem filled_split (w : Field → Nat) (p : Field → Bool) (fs : List Field) : filled w (fs.filter p) + filled w (fs.filter fun f => !p f) = filled w fs := by
  induction fs with
  | nil => rfl
  | cons f fs ih =>
    simp only [filled] at ih ⊢
    by_cases hp : p f = true <;> by_cases hd : f.default.isSome = true <;> simp [List.filter_cons, hp, hd] at ih ⊢ <;> omega

theorem elems_bound (w : Field → Nat) (all : List Field) (bd : Body) (ks : List (Kid × Nat)) (hb : bd.kids = ks.map Prod.fst) (h : Heavy env a b ks) (earlier : List Nat) (fs : List Field)
    (hw : ∀ f ∈ fs, DefaultWeighs env a b f (w f)) (vs : List Val) (hv : fieldsValue env all bd earlier fs = some vs) :
    Bound env a b ((fs.zip vs).flatMap fun x =>
      match x.1.kind with
      | .element s => fieldItems s x.1.name.expanded x.2
      | _ => []) (namedTotal ks fs + filled w (fs.filter isElem)) := by
  induction fs generalizing earlier vs with
  | nil => exact bound_nil _
  | cons f fs ih =>
    unfold fieldsValue at hv
    split at hv
    · rename_i v vs' h1 h2
      simp only [Option.some.injEq] at hv
      subst hv
      have key := ih _ (fun g hg => hw g (List.mem_cons_of_mem _ hg)) _ h2
      simp only [List.zip_cons_cons, List.flatMap_cons]
      cases hk : f.kind with
      | flatten e => simpa [namedTotal, isElem, List.filter_cons, hk] using key
      | «attribute» o t => simpa [namedTotal, isElem, List.filter_cons, hk] using key
      | text t => simpa [namedTotal, isElem, List.filter_cons, hk] using key
      | element s =>
        simp only [fieldValue, hk, hb, named_fst] at h1
        have h0 := hw f (List.mem_cons_self ..)
        have := slot_bound (env := env) (a := a) (b := b) s _ f.name.expanded _ (h.filter _) v (if f.default.isSome then w f else 0) (by
          intro d hd
          cases hdef : f.default with
          | none =>
            rw [hdef] at hd
            simp only [Option.none_or, slotAbsent] at hd
            split at hd
            · simp at hd
            · rename_i hc
              simp only [Option.some.injEq] at hd
              subst hd
              simp only [fieldItems, hc, valuesOf, List.map_nil]
              exact bound_nil _
            · rename_i hc
              simp only [Option.some.injEq] at hd
              subst hd
              simp only [fieldItems, hc, valuesOf, List.map_nil]
              exact bound_nil _
          | some d' =>
            rw [hdef] at hd
            simp only [Option.some_or, Option.some.injEq] at hd
            subst hd
            have := h0 _ hdef
            simp only [hk] at this
            simp only [Option.isSome_some, ite_true]
            exact this) h1
        refine Bound.mono (bound_append this key) ?_
        simp only [namedTotal, filled, isElem, List.filter_cons, hk, List.map_cons, List.sum_cons, ite_true]
        by_cases hd : f.default.isSome = true <;> simp [hd, isElem] <;> omega
    · simp at hv

/-- Children with different names are different children. -/
theorem named_total (ks : List (Kid × Nat)) (fs : List Field)
    (hd : ∀ (p q : Nat) (f g : Field) s s', fs[p]? = some f → fs[q]? = some g → f.kind = .element s → g.kind = .element s' → f.name.expanded = g.name.expanded → p = q) :
    namedTotal ks fs + total (ks.filter fun k => !declaredElem fs k.1.name) = total ks := by
  induction fs with
  | nil =>
    have : (ks.filter fun k => !declaredElem [] k.1.name) = ks := List.filter_eq_self.mpr (by simp [declaredElem])
    simp [namedTotal, this]
  | cons f fs ih =>
    have key := ih (fun p q f g s s' h1 h2 h3 h4 h5 => by
      have := hd (p + 1) (q + 1) f g s s' (by simpa using h1) (by simpa using h2) h3 h4 h5
      omega)
    cases hk : f.kind with
    | flatten e => simpa [namedTotal, declaredElem, hk] using key
    | «attribute» o t => simpa [namedTotal, declaredElem, hk] using key
    | text t => simpa [namedTotal, declaredElem, hk] using key
    | element s =>
      have h0 : ∀ k : Kid × Nat, (k.1.name == f.name.expanded) = true → declaredElem fs k.1.name = false := by
        intro k hkn
        rw [Bool.eq_false_iff]
        intro hdec
        simp only [declaredElem, List.any_eq_true] at hdec
        obtain ⟨g, hg, hgk⟩ := hdec
        split at hgk
        · rename_i s' hgk'
          obtain ⟨q, hq⟩ := List.getElem?_of_mem hg
          have := hd 0 (q + 1) f g s s' (by simp) (by simpa using hq) hk hgk' (by rw [beq_iff_eq] at hkn hgk; rw [hgk, hkn])
          omega
        · simp at hgk
      have h1 := total_filter (fun k => k.1.name == f.name.expanded) (ks.filter fun k => !declaredElem fs k.1.name)
      rw [List.filter_filter, List.filter_filter] at h1
      have e1 : (ks.filter fun k => (k.1.name == f.name.expanded) && !declaredElem fs k.1.name) = ks.filter fun k => k.1.name == f.name.expanded := by
        apply List.filter_congr
        intro k _
        by_cases hkn : (k.1.name == f.name.expanded) = true
        · simp [hkn, h0 k hkn]
        · simp [hkn]
      have e2 : (ks.filter fun k => (!(k.1.name == f.name.expanded)) && !declaredElem fs k.1.name) = ks.filter fun k => !declaredElem (f :: fs) k.1.name := by
        apply List.filter_congr
        intro k _
        simp only [declaredElem, List.any_cons, hk, Bool.not_or]
        congr 2
        exact Bool.eq_iff_iff.mpr (by simp only [beq_iff_eq]; exact eq_comm)
      rw [e1, e2] at h1
      simp only [namedTotal, List.map_cons, List.sum_cons, hk] at key ⊢
      omega

/-! ### Attributes -/

/-- How many attributes there are for these fields. -/
def attrTotal (l : List XAttr) (fs : List Field) : Nat :=
  (fs.map fun f =>
    match f.kind with
    | .attribute _ _ => (attrsNamed f.name.expanded l).length
    | _ => 0).sum

def declaredAttr (fields : List Field) (n : EName) : Bool :=
  fields.any fun f =>
    match f.kind with
    | .attribute _ _ => f.name.expanded == n
    | _ => false

theorem attr_total (l : List XAttr) (fs : List Field)
    (hd : ∀ (p q : Nat) (f g : Field) o t o' t', fs[p]? = some f → fs[q]? = some g → f.kind = .attribute o t → g.kind = .attribute o' t' → f.name.expanded = g.name.expanded → p = q) :
    attrTotal l fs + (l.filter fun x => !declaredAttr fs x.name.expanded).length = l.length := by
  induction fs with
  | nil =>
    have : (l.filter fun x => !declaredAttr [] x.name.expanded) = l := List.filter_eq_self.mpr (by simp [declaredAttr])
    simp [attrTotal, this]
  | cons f fs ih =>
    have key := ih (fun p q f g o t o' t' h1 h2 h3 h4 h5 => by
      have := hd (p + 1) (q + 1) f g o t o' t' (by simpa using h1) (by simpa using h2) h3 h4 h5
      omega)
    cases hk : f.kind with
    | flatten e => simpa [attrTotal, declaredAttr, hk] using key
    | element s => simpa [attrTotal, declaredAttr, hk] using key
    | text t => simpa [attrTotal, declaredAttr, hk] using key
    | «attribute» o t =>
      have h0 : ∀ x : XAttr, (x.name.expanded == f.name.expanded) = true → declaredAttr fs x.name.expanded = false := by
        intro x hkn
        rw [Bool.eq_false_iff]
        intro hdec
        simp only [declaredAttr, List.any_eq_true] at hdec
        obtain ⟨g, hg, hgk⟩ := hdec
        split at hgk
        · rename_i o' t' hgk'
          obtain ⟨q, hq⟩ := List.getElem?_of_mem hg
          have := hd 0 (q + 1) f g o t o' t' (by simp) (by simpa using hq) hk hgk' (by rw [beq_iff_eq] at hkn hgk; rw [hgk, hkn])
          omega
        · simp at hgk
      have h1 : ∀ m : List XAttr, (m.filter fun x => x.name.expanded == f.name.expanded).length + (m.filter fun x => !(x.name.expanded == f.name.expanded)).length = m.length := by
        intro m
        induction m with
        | nil => rfl
        | cons x m ihm => by_cases hx : (x.name.expanded == f.name.expanded) = true <;> simp [hx] at ihm ⊢ <;> omega
      have h1 := h1 (l.filter fun x => !declaredAttr fs x.name.expanded)
      rw [List.filter_filter, List.filter_filter] at h1
      have e1 : (l.filter fun x => (x.name.expanded == f.name.expanded) && !declaredAttr fs x.name.expanded) = l.filter fun x => x.name.expanded == f.name.expanded := by
        apply List.filter_congr
        intro x _
        by_cases hkn : (x.name.expanded == f.name.expanded) = true
        · simp [hkn, h0 x hkn]
        · simp [hkn]
      have e2 : (l.filter fun x => (!(x.name.expanded == f.name.expanded)) && !declaredAttr fs x.name.expanded) = l.filter fun x => !declaredAttr (f :: fs) x.name.expanded := by
        apply List.filter_congr
        intro x _
        simp only [declaredAttr, List.any_cons, hk, Bool.not_or]
        congr 2
        exact Bool.eq_iff_iff.mpr (by simp only [beq_iff_eq]; exact eq_comm)
      rw [e1, e2] at h1
      simp only [attrTotal, List.map_cons, List.sum_cons, hk, attrsNamed] at key ⊢
      omega

theorem attrs_bound (w : Field → Nat) (all : List Field) (bd : Body) (earlier : List Nat) (fs : List Field)
    (hw : ∀ f ∈ fs, DefaultWeighs env a b f (w f)) (vs : List Val) (hv : fieldsValue env all bd earlier fs = some vs) :
    b * (structAttrs fs vs).length ≤ b * attrTotal bd.attrs fs + filled w (fs.filter fun f => !isElem f) := by
  induction fs generalizing earlier vs with
  | nil => simp [structAttrs]
  | cons f fs ih =>
    unfold fieldsValue at hv
    split at hv
    · rename_i v vs' h1 h2
      simp only [Option.some.injEq] at hv
      subst hv
      have key := ih _ (fun g hg => hw g (List.mem_cons_of_mem _ hg)) _ h2
      have h0 := hw f (List.mem_cons_self ..)
      have hfill : filled w (fs.filter fun f => !isElem f) ≤ filled w ((f :: fs).filter fun f => !isElem f) := by
        simp only [filled, List.filter_cons]
        split <;> simp [List.filter_cons]
        split <;> simp
      cases hk : f.kind with
      | flatten e =>
        simp only [structAttrs, List.zip_cons_cons, List.filterMap_cons, hk, attrTotal, List.map_cons, List.sum_cons, Nat.zero_add] at key ⊢
        omega
      | element s =>
        simp only [structAttrs, List.zip_cons_cons, List.filterMap_cons, hk, attrTotal, List.map_cons, List.sum_cons, Nat.zero_add] at key ⊢
        omega
      | text t =>
        simp only [structAttrs, List.zip_cons_cons, List.filterMap_cons, hk, attrTotal, List.map_cons, List.sum_cons, Nat.zero_add] at key ⊢
        omega
      | «attribute» o t =>
        have hone : (structAttrs (f :: fs) (v :: vs')).length = (attrText o t v).toList.length + (structAttrs fs vs').length := by
          simp only [structAttrs, List.zip_cons_cons, List.filterMap_cons, hk]
          cases attrText o t v <;> simp <;> omega
        have htot : attrTotal bd.attrs (f :: fs) = (attrsNamed f.name.expanded bd.attrs).length + attrTotal bd.attrs fs := by
          simp only [attrTotal, List.map_cons, List.sum_cons, hk]
        have hfill2 : filled w ((f :: fs).filter fun f => !isElem f) = (if f.default.isSome then w f else 0) + filled w (fs.filter fun f => !isElem f) := by
          have : isElem f = false := by simp [isElem, hk]
          by_cases hd : f.default.isSome = true <;> simp [filled, this, hd]
        have hhere : b * (attrText o t v).toList.length ≤ b * (attrsNamed f.name.expanded bd.attrs).length + (if f.default.isSome then w f else 0) := by
          have hle : (attrText o t v).toList.length ≤ 1 := by cases attrText o t v <;> simp
          simp only [fieldValue, hk] at h1
          cases hn : attrsNamed f.name.expanded bd.attrs with
          | cons x xs =>
            refine Nat.le_trans (Nat.mul_le_mul_left b hle) ?_
            have : b * 1 ≤ b * (x :: xs).length := Nat.mul_le_mul_left b (by simp)
            omega
          | nil =>
            rw [hn] at h1
            simp only [attrValue] at h1
            cases hdef : f.default with
            | none =>
              rw [hdef] at h1
              simp only [Option.none_or, attrAbsent] at h1
              split at h1
              · rename_i ho
                simp only [Option.some.injEq] at h1
                subst h1
                simp [attrText]
              · simp at h1
            | some d =>
              rw [hdef] at h1
              simp only [Option.some_or, Option.some.injEq] at h1
              subst h1
              have := h0 _ hdef
              simp only [hk] at this
              cases ht : attrText o t d with
              | none => simp
              | some s => simpa using this (by simp [ht])
        rw [hone, htot, hfill2, Nat.mul_add, Nat.mul_add]
        omega
    · simp at hv

/-! ### Elements -/

/-- A body whose children are as heavy as they are written. -/
theorem body_bound (hok : EnvOk env) {e : Nat} (hw : DefaultsWeigh env a b e) (bd : Body) (ks : List (Kid × Nat)) (hb : bd.kids = ks.map Prod.fst) (h : Heavy env a b ks)
    (ty : Ty) (v : Val) (hv : bodyValue env bd ty = some v) (n : EName) :
    Bound env a b [{ name := n, value := some (ty, v) }] (a + e + b * bd.attrs.length + total ks) := by
  intro g hg
  cases hg with
  | text ht r =>
    cases r
    simp only [EForest.weigh, List.length_nil]
    omega
  | strct hc r =>
    rename_i i vs gg f'
    cases r
    obtain ⟨w, hw1, hw2⟩ := hw i
    simp only [bodyValue, structValue, Option.map_eq_some_iff] at hv
    obtain ⟨vs', hv, he⟩ := hv
    cases he
    have h1 := elems_bound w _ bd ks hb h [] _ hw1 vs hv
    have h2 := flats_bound _ bd (ks.filter fun k => !declaredElem (env.strct i).fields k.1.name) (by rw [hb, strangers_fst]) (h.filter _) [] _ vs hv
    have h3 := attrs_bound w _ bd [] _ hw1 vs hv
    have h4 := named_total ks _ (hok.elems i)
    have h5 := attr_total bd.attrs _ (hok.attrs i)
    have h6 := bound_append h1 h2 _ hc
    have h7 := filled_split w isElem (env.strct i).fields
    have h8 : b * attrTotal bd.attrs (env.strct i).fields ≤ b * bd.attrs.length := Nat.mul_le_mul_left b (by omega)
    simp only [pastW] at h6
    simp only [filled] at h7 h3 h6
    simp only [EForest.weigh]
    omega
  | enm hc r =>
    cases r
    simp only [bodyValue] at hv
    rw [hb] at hv
    have h1 := enum_bound _ ks h _ hv _ hc
    simp only [EForest.weigh, List.length_nil, Nat.mul_zero]
    simp only [known] at h1
    have := Nat.le_trans h1 (total_filter_le _ ks)
    omega

theorem kids_heavy (hok : EnvOk env) {e : Nat} (hw : DefaultsWeigh env a b e) (f : Forest) :
    ∃ ks : List (Kid × Nat), kids env f = ks.map Prod.fst ∧ Heavy env a b ks ∧ total ks = f.weigh (a + e) b := by
  induction f with
  | nil => exact ⟨[], rfl, (fun k hk => by simp at hk), rfl⟩
  | chars s c p rest ih => exact ih
  | misc m p rest ih => exact ih
  | elem n as ns p ch ep rest ih1 ih2 =>
    obtain ⟨ks1, h1, h2, h3⟩ := ih1
    obtain ⟨ks2, h4, h5, h6⟩ := ih2
    refine ⟨(_, a + e + b * as.length + total ks1) :: ks2, by rw [kids, h4]; rfl, ?_, by rw [total_cons, h6, h3]; rfl⟩
    intro k hk
    rcases List.mem_cons.mp hk with rfl | hk
    · exact ⟨by dsimp only; omega, fun ty v nm hv => body_bound hok hw { attrs := as, kids := kids env ch, text := ch.text } ks1 h1 h2 ty v hv nm⟩
    · exact h5 k hk

/-- What is written weighs no more than what was read, if each element read may have what the defaults weigh on top. -/
theorem represents_weigh (hok : EnvOk env) {e : Nat} (hw : DefaultsWeigh env a b e) (x : Elem) (ty : Ty) (v : Val) (hv : bodyValue env (x.body env) ty = some v)
    (name : EName) (as : List (EName × String)) (g : EForest) (h : Represents env name ty v as g) :
    a + b * as.length + g.weigh a b ≤ x.weigh (a + e) b := by
  obtain ⟨ks, h1, h2, h3⟩ := kids_heavy hok hw x.children
  have := body_bound hok hw (x.body env) ks h1 h2 ty v hv name _ h
  simp only [EForest.weigh] at this
  simp only [Elem.weigh, ← h3]
  have e1 : (x.body env).attrs = x.attrs := rfl
  rw [e1] at this
  omega

end

/-! ### What was written -/

/-- Of the events asked for. -/
def weighE (a b : Nat) : List EEvent → Nat
  | [] => 0
  | .start _ as :: l => a + b * as.length + weighE a b l
  | _ :: l => weighE a b l

theorem weighE_forest (a b : Nat) (g : EForest) (l : List EEvent) : weighE a b (g.events ++ l) = g.weigh a b + weighE a b l := by
  induction g generalizing l with
  | nil => simp [EForest.events, EForest.weigh]
  | chars s rest ih => simp only [EForest.events, EForest.weigh, List.cons_append, weighE, ih]
  | elem n as c rest ih1 ih2 =>
    simp only [EForest.events, EForest.weigh, List.cons_append, List.append_assoc, weighE, ih1, ih2]
    omega

/-- As many attributes are written as were asked for. -/
def StepAttrs : Step → Prop
  | .wrote (.start _ as _) (some (_, l)) => as.length = l.length
  | _ => True

theorem resolveAttrs_length {n : Namespaces} {l : List (EName × String)} {as : List (WName × String)} (h : resolveAttrs n l = .ok as) : as.length = l.length := by
  induction l generalizing as with
  | nil => simp only [resolveAttrs, Except.ok.injEq] at h; subst h; rfl
  | cons x l ih =>
    unfold resolveAttrs at h
    split at h
    · simp at h
    · split at h
      · simp at h
      · rename_i h2
        simp only [Except.ok.injEq] at h
        subst h
        simp [ih h2]

theorem attrsInv (dbg : Bool) : StepInv dbg (fun _ _ => True) (fun _ => True) (fun _ => True) StepAttrs where
  root _ := trivial
  child _ _ _ := trivial
  ns _ _ _ _ _ _ _ := trivial
  attr _ _ _ _ _ _ _ := trivial
  start _ _ _ _ _ _ _ h := ⟨trivial, resolveAttrs_length h⟩
  chars _ := trivial
  stop := trivial
  failed _ _ := trivial
  abandoned _ := trivial

theorem written_steps (a b : Nat) (steps : List Step) (es : List EEvent) (h : steps.map stepAsked = es.map some) (hs : ∀ x ∈ steps, StepAttrs x) :
    written a b (steps.filterMap stepEvent) = weighE a b es := by
  induction steps generalizing es with
  | nil => cases es with
    | nil => rfl
    | cons e es => simp at h
  | cons x steps ih =>
    cases es with
    | nil => simp at h
    | cons e es =>
      simp only [List.map_cons, List.cons.injEq] at h
      obtain ⟨h1, h2⟩ := h
      have hx := hs x (List.mem_cons_self ..)
      have hr := ih es h2 (fun y hy => hs y (List.mem_cons_of_mem _ hy))
      unfold stepAsked at h1
      split at h1 <;> cases h1 <;> simp only [List.filterMap_cons, stepEvent, written, weighE, hr]
      simp only [StepAttrs] at hx
      rw [hx]

/-! ### Counts of events -/

theorem given_append (a b : Nat) (l l' : List (XEvent × Pos)) : given a b (l ++ l') = given a b l + given a b l' := by simp [given]

theorem given_forest (a b : Nat) (f : Forest) : given a b f.events = f.weigh a b := by
  induction f with
  | nil => rfl
  | chars s c p rest ih => cases c <;> simpa [Forest.events, Forest.weigh, given] using ih
  | misc m p rest ih => simpa [Forest.events, Forest.weigh, given] using ih
  | elem n as ns p ch ep rest ih1 ih2 =>
    have h : ∀ x l, given a b (x :: l) = given a b [x] + given a b l := fun x l => given_append a b [x] l
    simp only [Forest.events, Forest.weigh]
    rw [h, given_append, h (.endElement n, ep), ih1, ih2]
    simp only [given, List.map_cons, List.map_nil, List.sum_cons, List.sum_nil]
    omega

theorem given_misc (a b : Nat) (l : List (Misc × Pos)) : given a b (miscEvents l) = 0 := by
  induction l with
  | nil => rfl
  | cons m l ih => simpa [miscEvents, given] using ih

/-! ### Depth -/

/-- Whatever these children look like, at most `n` elements are inside each other. -/
def Low (env : Env) (l : List Item) (n : Nat) : Prop := ∀ g, Shows env l g → g.depth ≤ n

section
variable {env : Env}

theorem low_items {l : List Item} {n : Nat} (h : ∀ x ∈ l, Low env [x] n) : Low env l n := by
  intro g hg
  induction l generalizing g with
  | nil => cases hg; exact Nat.zero_le _
  | cons x l ih =>
    have hx := h x (List.mem_cons_self ..)
    have hl := ih fun y hy => h y (List.mem_cons_of_mem _ hy)
    cases hg with
    | unit r => have := hx _ (.unit .nil); have := hl _ r; simp only [EForest.depth] at *; omega
    | text ht r => have := hx _ (.text ht .nil); have := hl _ r; simp only [EForest.depth] at *; omega
    | strct hc r => have := hx _ (.strct hc .nil); have := hl _ r; simp only [EForest.depth] at *; omega
    | enm hc r => have := hx _ (.enm hc .nil); have := hl _ r; simp only [EForest.depth] at *; omega

theorem low_append {l l' : List Item} {n : Nat} (h : Low env l n) (h' : Low env l' n) : Low env (l ++ l') n := by
  intro g hg
  have : ∃ g1 g2, Shows env l g1 ∧ Shows env l' g2 ∧ g.depth = max g1.depth g2.depth := by
    clear h h'
    induction l generalizing g with
    | nil => exact ⟨.nil, g, .nil, hg, by simp [EForest.depth]⟩
    | cons x l ih =>
      rw [List.cons_append] at hg
      cases hg with
      | unit r =>
        obtain ⟨g1, g2, h1, h2, hw⟩ := ih _ r
        exact ⟨_, g2, .unit h1, h2, by simp only [EForest.depth, hw]; omega⟩
      | text ht r =>
        obtain ⟨g1, g2, h1, h2, hw⟩ := ih _ r
        exact ⟨_, g2, .text ht h1, h2, by simp only [EForest.depth, hw]; omega⟩
      | strct hc r =>
        obtain ⟨g1, g2, h1, h2, hw⟩ := ih _ r
        exact ⟨_, g2, .strct hc h1, h2, by simp only [EForest.depth, hw]; omega⟩
      | enm hc r =>
        obtain ⟨g1, g2, h1, h2, hw⟩ := ih _ r
        exact ⟨_, g2, .enm hc h1, h2, by simp only [EForest.depth, hw]; omega⟩
  obtain ⟨g1, g2, h1, h2, hw⟩ := this
  have k1 := h _ h1
  have k2 := h' _ h2
  omega

theorem low_nil (n : Nat) : Low env [] n := fun g hg => by cases hg; exact Nat.zero_le _

/-- No child, written as a value it was read as, is deeper than `n`. -/
def LowKids (env : Env) (ks : List Kid) (n : Nat) : Prop :=
  ∀ k ∈ ks, 1 ≤ n ∧ ∀ ty v nm, k.as ty = some v → Low env [{ name := nm, value := some (ty, v) }] n

theorem allAs_low (ty : Ty) (nm : EName) (n : Nat) (ks : List Kid) (h : LowKids env ks n) (vs : List Val) (hv : allAs ty ks = some vs) :
    Low env (vs.map fun x => { name := nm, value := some (ty, x) }) n := by
  apply low_items
  intro x hx
  obtain ⟨v, hv', rfl⟩ := List.mem_map.mp hx
  have : ∃ k ∈ ks, k.as ty = some v := by
    clear h hx
    induction ks generalizing vs with
    | nil => simp only [allAs, Option.some.injEq] at hv; subst hv; simp at hv'
    | cons k ks ih =>
      simp only [allAs] at hv
      split at hv
      · rename_i w ws hk hks
        simp only [Option.some.injEq] at hv
        subst hv
        rcases List.mem_cons.mp hv' with rfl | hv'
        · exact ⟨k, List.mem_cons_self .., hk⟩
        · obtain ⟨k', h1, h2⟩ := ih _ hks hv'
          exact ⟨k', List.mem_cons_of_mem _ h1, h2⟩
      · simp at hv
  obtain ⟨k, hk, hkv⟩ := this
  exact (h k hk).2 _ _ _ hkv

theorem slot_low (s : Slot) (absent : Option Val) (nm : EName) (n : Nat) (ks : List Kid) (h : LowKids env ks n) (v : Val)
    (ha : ∀ d, absent = some d → Low env (fieldItems s nm d) n) (hv : slotValue s absent ks = some v) : Low env (fieldItems s nm v) n := by
  cases ks with
  | nil => exact ha v hv
  | cons k ks =>
    have hk := h k (List.mem_cons_self ..)
    simp only [slotValue] at hv
    split at hv
    · rename_i hc
      split at hv
      · simp only [fieldItems, hc, valuesOf, List.map_cons, List.map_nil]
        exact hk.2 _ _ _ hv
      · simp at hv
    · rename_i hc
      split at hv
      · simp only [Option.map_eq_some_iff] at hv
        obtain ⟨x, hx, rfl⟩ := hv
        simp only [fieldItems, hc, valuesOf, List.map_cons, List.map_nil]
        exact hk.2 _ _ _ hx
      · simp at hv
    · rename_i hc
      simp only [Option.map_eq_some_iff] at hv
      obtain ⟨x, hx, rfl⟩ := hv
      simp only [fieldItems, hc, valuesOf]
      exact allAs_low s.ty nm n _ h x hx

theorem choices_mem {d : EnumDef} {ks : List Kid} {c : Nat × Kid} (h : c ∈ choices d ks) : c.2 ∈ ks := by
  simp only [choices, List.mem_filterMap, Option.map_eq_some_iff] at h
  obtain ⟨k, hk, i, -, rfl⟩ := h
  exact hk

theorem enum_low (d : EnumDef) (n : Nat) (ks : List Kid) (h : LowKids env ks n) (v : Val) (hv : enumValue d ks = some v) : Low env (variantItems d v) n := by
  unfold enumValue at hv
  split at hv
  · simp at hv
  · rename_i i k rest hc
    have hall : LowKids env (k :: rest.map Prod.snd) n := by
      intro x hx
      apply h
      rcases List.mem_cons.mp hx with rfl | hx
      · exact choices_mem (c := (i, x)) (by rw [hc]; exact List.mem_cons_self ..)
      · obtain ⟨c, hc', rfl⟩ := List.mem_map.mp hx
        exact choices_mem (by rw [hc]; exact List.mem_cons_of_mem _ hc')
    split at hv
    · split at hv
      · simp at hv
      · rename_i w hw
        split at hv
        · rename_i hs
          simp only [Option.some.injEq] at hv
          subst hv
          simp only [variantItems, hw, hs]
          split
          · exact low_nil _
          · intro g hg
            cases hg with
            | unit r =>
              cases r
              have := (hall k (List.mem_cons_self ..)).1
              simp only [EForest.depth]
              omega
        · rename_i s hs
          simp only [Option.map_eq_some_iff] at hv
          obtain ⟨p, hp, rfl⟩ := hv
          simp only [variantItems, hw, hs]
          split
          · exact low_nil _
          · exact slot_low s none w.name.expanded n _ hall p (by simp) hp
    · simp at hv

theorem past_mem {es : List Nat} {ks : List Kid} {k : Kid} (h : k ∈ past env es ks) : k ∈ ks := by
  induction es generalizing ks with
  | nil => exact h
  | cons e es ih => exact (List.takeWhile_sublist _).mem (ih h)

theorem fields_low {e n : Nat} (he : e ≤ n) (all : List Field) (bd : Body) (h : LowKids env bd.kids n) (earlier : List Nat) (fs : List Field)
    (hd : ∀ f ∈ fs, ∀ s d, f.kind = .element s → f.default = some d → Low env (fieldItems s f.name.expanded d) e)
    (vs : List Val) (hv : fieldsValue env all bd earlier fs = some vs) :
    Low env ((fs.zip vs).flatMap fun x =>
      match x.1.kind with
      | .element s => fieldItems s x.1.name.expanded x.2
      | _ => []) n ∧
    Low env ((fs.zip vs).flatMap fun x =>
      match x.1.kind with
      | .flatten e => variantItems (env.enm e) x.2
      | _ => []) n := by
  induction fs generalizing earlier vs with
  | nil => exact ⟨low_nil _, low_nil _⟩
  | cons f fs ih =>
    unfold fieldsValue at hv
    split at hv
    · rename_i v vs' h1 h2
      simp only [Option.some.injEq] at hv
      subst hv
      obtain ⟨k1, k2⟩ := ih _ (fun g hg => hd g (List.mem_cons_of_mem _ hg)) _ h2
      simp only [List.zip_cons_cons, List.flatMap_cons]
      refine ⟨low_append ?_ k1, low_append ?_ k2⟩
      · cases hk : f.kind with
        | element s =>
          simp only [fieldValue, hk] at h1
          refine slot_low s _ _ n _ (fun k hk' => h k (List.mem_filter.mp hk').1) v ?_ h1
          intro d hd'
          cases hdef : f.default with
          | none =>
            rw [hdef] at hd'
            simp only [Option.none_or, slotAbsent] at hd'
            split at hd'
            · simp at hd'
            all_goals
              rename_i hc
              simp only [Option.some.injEq] at hd'
              subst hd'
              simp only [fieldItems, hc, valuesOf, List.map_nil]
              exact low_nil _
          | some d' =>
            rw [hdef] at hd'
            simp only [Option.some_or, Option.some.injEq] at hd'
            subst hd'
            exact fun g hg => Nat.le_trans (hd f (List.mem_cons_self ..) s _ hk hdef g hg) he
        | _ => exact low_nil _
      · cases hk : f.kind with
        | flatten i =>
          simp only [fieldValue, hk] at h1
          exact enum_low _ n _ (fun k hk' => h k (List.mem_filter.mp (past_mem hk')).1) v h1
        | _ => exact low_nil _
    · simp at hv

theorem body_low {e n : Nat} (he : e ≤ n) (hd : DefaultsDeep env e) (bd : Body) (h : LowKids env bd.kids n) (ty : Ty) (v : Val) (hv : bodyValue env bd ty = some v)
    (nm : EName) : Low env [{ name := nm, value := some (ty, v) }] (n + 1) := by
  intro g hg
  cases hg with
  | text ht r => cases r; simp [EForest.depth]
  | strct hc r =>
    cases r
    simp only [bodyValue, structValue, Option.map_eq_some_iff] at hv
    obtain ⟨vs', hv, he'⟩ := hv
    cases he'
    obtain ⟨k1, k2⟩ := fields_low he _ bd h [] _ (fun f hf s d h1 h2 => hd _ f hf s d h1 h2) _ hv
    have := low_append k1 k2 _ hc
    simp only [EForest.depth]
    omega
  | enm hc r =>
    cases r
    have := enum_low _ n _ h _ hv _ hc
    simp only [EForest.depth]
    omega

theorem kids_low {e : Nat} (hd : DefaultsDeep env e) (f : Forest) : ∀ n, f.depth + e ≤ n → LowKids env (kids env f) n := by
  induction f with
  | nil => intro n _ k hk; simp [kids] at hk
  | chars s c p rest ih => exact ih
  | misc m p rest ih => exact ih
  | elem nm as ns p ch ep rest ih1 ih2 =>
    intro n hn
    simp only [Forest.depth] at hn
    intro k hk
    simp only [kids] at hk
    rcases List.mem_cons.mp hk with rfl | hk
    · obtain ⟨m, rfl⟩ : ∃ m, n = m + 1 := ⟨n - 1, by omega⟩
      exact ⟨by omega, fun ty v nm' hv => body_low (by omega) hd { attrs := as, kids := kids env ch, text := ch.text } (ih1 m (by omega)) ty v hv nm'⟩
    · exact ih2 n (by omega) k hk

theorem represents_low {e : Nat} (hd : DefaultsDeep env e) (x : Elem) (ty : Ty) (v : Val) (hv : bodyValue env (x.body env) ty = some v)
    (name : EName) (as : List (EName × String)) (g : EForest) (h : Represents env name ty v as g) : g.depth ≤ x.children.depth + e := by
  have := body_low (e := e) (n := x.children.depth + e) (by omega) hd (x.body env) (kids_low hd x.children _ (Nat.le_refl _)) ty v hv name _ h
  simp only [EForest.depth] at this
  omega

end

end SX.Copy
