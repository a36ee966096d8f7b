import Verif.Spec.Rewrite
import Verif.Props.SourceOk
import Verif.Props.Source

namespace SX.Rewrite
open Spec SX.Gen Spec.Gen SX.SourceOk

theorem meant_to {c : Crate} {env : Env} (hd : DeclaresTypes c env) (i p : Nat) (f : DField) (hf : (fieldsOf (c.strct i))[p]? = some f) :
    ∃ g, (env.strct i).fields[p]? = some g ∧ FieldMeans (Maps (c.strct i)) (typeOf c i f) f g := by
  obtain ⟨s, h1, h2⟩ := hd.structs i
  obtain ⟨fields, h3, -, h4⟩ := C47_fields _ s (fun f => c.means (c.fieldTy i f)) h1
  have : fieldsOf (c.strct i) = fields := by unfold fieldsOf; rw [h3]
  rw [h2]
  exact h4 p f (this ▸ hf)

theorem fields_length {c : Crate} {env : Env} (hd : DeclaresTypes c env) (i : Nat) : (env.strct i).fields.length = (fieldsOf (c.strct i)).length := by
  obtain ⟨s, h1, h2⟩ := hd.structs i
  rw [h2]
  exact (struct_both h1 _).1

theorem variants_length {c : Crate} {env : Env} (hd : DeclaresTypes c env) (i : Nat) : (env.enm i).variants.length = (variantsOf (c.enm i)).length := by
  obtain ⟨e, h1, h2⟩ := hd.enums i
  rw [h2]
  simp [MEnum.toDef]

theorem variant_slot {c : Crate} {env : Env} (hd : DeclaresTypes c env) (hn : ∀ i, ((variantsOf (c.enm i)).map fun v => v.ident).Nodup) (i p : Nat) (v : DVariant)
    (hv : (variantsOf (c.enm i))[p]? = some v) : ∃ w, (env.enm i).variants[p]? = some w ∧ VariantBoth (Maps (c.enm i)) v w ∧ (w.slot = none ↔ v.fields = .unit) ∧
      (v.fields ≠ .unit → w.slot = some (c.means (c.payloadTy i v.ident)).element) := by
  obtain ⟨e, h1, h2⟩ := hd.enums i
  rw [h2]
  obtain ⟨vs, hdd, -⟩ := C37_description _ _ h1
  have hvo : variantsOf (c.enm i) = vs := by unfold variantsOf; rw [hdd]
  refine ⟨e.variant _ v, by simp only [MEnum.toDef, List.getElem?_map, hv]; rfl, enum_both h1 (hn i) _ v (List.mem_of_getElem? hv), ?_⟩
  have := hn i
  rw [hvo] at this hv
  have h3 := C40_variant _ e vs (fun v => (c.means (c.payloadTy i v)).element) h1 hdd this v (List.mem_of_getElem? hv)
  exact ⟨h3.2.1, h3.2.2.1⟩

/-- What the declarations say. -/
theorem reordered {m : Places} {c c' : Crate} {env env' : Env} (hd : DeclaresTypes c env) (hd' : DeclaresTypes c' env') (ho : InOrder c) (ho' : InOrder c') (ha : Apart c)
    (ha' : Apart c') (hr : Rewritten m c c') : Reordered m env env' where
  fields := by
    intro i p g' hg
    obtain ⟨f', hf', hb'⟩ := field_from hd' i p g' hg
    obtain ⟨f, hf, hs⟩ := hr.fields i p f' hf'
    obtain ⟨g, hg', hm⟩ := meant_to hd i _ f hf
    obtain ⟨g'', hg'', hm'⟩ := meant_to hd' i p f' hf'
    rw [hg] at hg''
    cases hg''
    have hb : FieldBoth (Maps (c.strct i)) (c.means (c.fieldTy i f.ident)) f g := by
      obtain ⟨x, hx, hb⟩ := field_to hd i _ f hf
      rw [hg'] at hx
      cases hx
      exact hb
    have ht : word "text" ∉ attrItems f.attrs := ha.noText i f (List.mem_of_getElem? hf)
    have hwa := hs.words "attribute" (by simp)
    have hwf := hs.words "flatten" (by simp)
    have hwt := hs.words "text" (by simp)
    have hwd := hs.words "default" (by simp)
    have hse : SaysElement f' ↔ SaysElement f := by
      simp only [SaysElement, List.mem_cons, List.not_mem_nil, or_false, forall_eq_or_imp, forall_eq, hwa, hwf, hwt]
    refine ⟨g, hg', ?_, ?_, ?_⟩
    · intro hk
      obtain ⟨n, h1, h2⟩ := hs.name fun h => by obtain ⟨e, he⟩ := hb.flatten.mp h; exact hk e he
      rw [(hb.name n).mp h1, (hb'.name n).mp h2]
    · by_cases h1 : word "attribute" ∈ attrItems f.attrs
      · rw [hm.attribute h1, hm'.attribute (hwa.mpr h1), hs.attribute h1]
      · by_cases h2 : word "flatten" ∈ attrItems f.attrs
        · rw [hm.flatten h2, hm'.flatten (hwf.mpr h2), hs.flatten h2]
        · have h3 : SaysElement f := by simp [SaysElement, h1, h2, ht]
          rw [hm.element h3, hm'.element (hse.mpr h3), hs.element h3]
    · rw [hm.default, hm'.default]
      unfold sourceDefault
      by_cases h : word "default" ∈ attrItems f.attrs
      · rw [if_pos h, if_pos (hwd.mpr h)]
        obtain ⟨d1, d2, d3⟩ := hs.default h env env' hd hd'
        show SameField m env env' g.kind _ _
        by_cases h1 : word "attribute" ∈ attrItems f.attrs
        · rw [hm.attribute h1, d2 h1]
          exact .attribute
        · by_cases h2 : word "flatten" ∈ attrItems f.attrs
          · rw [hm.flatten h2]
            exact d3 h2
          · have h3 : SaysElement f := by simp [SaysElement, h1, h2, ht]
            rw [hm.element h3]
            exact d1 h3
      · rw [if_neg h, if_neg fun x => h (hwd.mp x)]
        trivial
  all := by
    intro i q hq
    rw [fields_length hd] at hq
    rw [fields_length hd']
    exact hr.all i q hq
  flattened := by
    intro i p q f g e e' hf hg hk hk' hpq
    obtain ⟨x, hx, hb⟩ := field_from hd' i p f hf
    obtain ⟨y, hy, hb'⟩ := field_from hd' i q g hg
    exact hr.flattened i p q x y hx hy (hb.flatten.mpr ⟨e, hk⟩) (hb'.flatten.mpr ⟨e', hk'⟩) hpq
  idents := by
    intro i
    obtain ⟨e, -, h2⟩ := hd.enums i
    obtain ⟨e', -, h2'⟩ := hd'.enums i
    rw [h2, h2']
    exact hr.idents i
  variants := by
    intro i p w' hw
    obtain ⟨v', hv', -⟩ := variant_from hd' ho'.variantIdents i p w' hw
    obtain ⟨w'', hw'', hb', hu', hp'⟩ := variant_slot hd' ho'.variantIdents i p v' hv'
    rw [hw] at hw''
    cases hw''
    obtain ⟨v, hv, hs⟩ := hr.variants i p v' hv'
    obtain ⟨w, hw1, hb, hu, hp⟩ := variant_slot hd ho.variantIdents i _ v hv
    have n1 : ¬ Skipped v := ha.noSkip i v (List.mem_of_getElem? hv)
    have n2 : ¬ Skipped v' := ha'.noSkip i v' (List.mem_of_getElem? hv')
    refine ⟨w, hw1, ?_, ?_⟩
    · obtain ⟨n, h1, h2⟩ := hs.name
      rw [(hb.name n1 n).mp h1, (hb'.name n2 n).mp h2]
    · by_cases h : v.fields = .unit
      · rw [hu.mpr h, hu'.mpr (hs.unit.mpr h)]
      · rw [hp h, hp' fun x => h (hs.unit.mp x), hs.payload h]
  allVariants := by
    intro i q hq
    rw [variants_length hd] at hq
    rw [variants_length hd']
    exact hr.allVariants i q hq

end SX.Rewrite

/-! ### What is written -/

namespace SX.Rewrite
open Spec SX.Gen Spec.Gen

/-- What of a field is seen in documents. -/
def seen (f : Field) : Kind × Option EName := (f.kind, match f.kind with | .flatten _ => none | _ => some f.name.expanded)

def seenVariant (w : Variant) : EName × Option Slot × Bool := (w.name.expanded, w.slot, w.skip)

structure SeenSame (env env' : Env) : Prop where
  fields : ∀ i, (env'.strct i).fields.map seen = (env.strct i).fields.map seen
  variants : ∀ i, (env'.enm i).variants.map seenVariant = (env.enm i).variants.map seenVariant

theorem seenSame_of {env env' : Env} (hok : EnvOk env) (hok' : EnvOk env') (hr : Reordered Places.same env env') : SeenSame env env' where
  fields := by
    intro i
    apply List.ext_getElem?
    intro p
    rw [List.getElem?_map, List.getElem?_map]
    cases h : (env'.strct i).fields[p]? with
    | some f' =>
      obtain ⟨f, hf, hs⟩ := hr.fields i p f' h
      rw [show Places.same.field i p = p from rfl] at hf
      rw [hf]
      simp only [Option.map_some, seen, hs.kind]
      cases hk : f.kind with
      | flatten e => rfl
      | _ => rw [hs.name (by simp [hk])]
    | none =>
      cases h' : (env.strct i).fields[p]? with
      | none => rfl
      | some f =>
        obtain ⟨q, hq, he⟩ := hr.all i p (List.getElem?_eq_some_iff.mp h').1
        cases show q = p from he
        rw [List.getElem?_eq_getElem hq] at h
        cases h
  variants := by
    intro i
    apply List.ext_getElem?
    intro p
    rw [List.getElem?_map, List.getElem?_map]
    cases h : (env'.enm i).variants[p]? with
    | some w' =>
      obtain ⟨w, hw, hs1, hs2⟩ := hr.variants i p w' h
      rw [show Places.same.variant i p = p from rfl] at hw
      rw [hw]
      simp only [Option.map_some, seenVariant, hs1, hs2, hok.noSkip i w (List.mem_of_getElem? hw), hok'.noSkip i w' (List.mem_of_getElem? h)]
    | none =>
      cases h' : (env.enm i).variants[p]? with
      | none => rfl
      | some f =>
        obtain ⟨q, hq, he⟩ := hr.allVariants i p (List.getElem?_eq_some_iff.mp h').1
        cases show q = p from he
        rw [List.getElem?_eq_getElem hq] at h
        cases h

theorem structAttrs_seen : ∀ {l l' : List Field} (_ : l'.map seen = l.map seen) (vs : List Val), structAttrs l' vs = structAttrs l vs
  | [], [], _, _ => rfl
  | f :: l, f' :: l', h, [] => by simp [structAttrs]
  | f :: l, f' :: l', h, v :: vs => by
    simp only [List.map_cons, List.cons.injEq, seen, Prod.mk.injEq] at h
    have ih := structAttrs_seen (l := l) (l' := l') h.2 vs
    unfold structAttrs at ih ⊢
    simp only [List.zip_cons_cons, List.filterMap_cons, h.1.1, ih]
    cases hk : f.kind with
    | «attribute» o t =>
      have := h.1.2
      rw [h.1.1, hk] at this
      simp only [Option.some.injEq] at this
      simp only [this]
    | _ => rfl

theorem variantItems_seen {d d' : EnumDef} (h : d'.variants.map seenVariant = d.variants.map seenVariant) (v : Val) : variantItems d' v = variantItems d v := by
  cases v with
  | enm j p =>
    have hj := congrArg (fun l => l[j]?) h
    simp only [List.getElem?_map] at hj
    unfold variantItems
    cases h1 : d.variants[j]? <;> cases h2 : d'.variants[j]? <;> rw [h1, h2] at hj <;>
      simp only [Option.map_none, Option.map_some, reduceCtorEq, Option.some.injEq, seenVariant, Prod.mk.injEq] at hj
    · simp only [h1, h2]
    · simp only [h1, h2, hj.1, hj.2.1, hj.2.2]
  | _ => rfl

theorem structItems_seen {env env' : Env} (hs : SeenSame env env') {l l' : List Field} (h : l'.map seen = l.map seen) (vs : List Val) :
    structItems env' l' vs = structItems env l vs := by
  unfold structItems
  congr 1
  · induction l generalizing l' vs with
    | nil => cases l' with
      | nil => rfl
      | cons _ _ => simp at h
    | cons f l ih =>
      cases l' with
      | nil => simp at h
      | cons f' l' =>
        simp only [List.map_cons, List.cons.injEq, seen, Prod.mk.injEq] at h
        cases vs with
        | nil => rfl
        | cons v vs =>
          simp only [List.zip_cons_cons, List.flatMap_cons, h.1.1, ih h.2 vs]
          congr 1
          cases hk : f.kind with
          | element s =>
            have := h.1.2
            rw [h.1.1, hk] at this
            simp only [Option.some.injEq] at this
            simp only [this]
          | _ => rfl
  · induction l generalizing l' vs with
    | nil => cases l' with
      | nil => rfl
      | cons _ _ => simp at h
    | cons f l ih =>
      cases l' with
      | nil => simp at h
      | cons f' l' =>
        simp only [List.map_cons, List.cons.injEq, seen, Prod.mk.injEq] at h
        cases vs with
        | nil => rfl
        | cons v vs =>
          simp only [List.zip_cons_cons, List.flatMap_cons, h.1.1, ih h.2 vs]
          congr 1
          cases f.kind with
          | flatten e => exact variantItems_seen (hs.variants e) v
          | _ => rfl

theorem shows_seen {env env' : Env} (hs : SeenSame env env') {l : List Item} {f : EForest} (h : Shows env l f) : Shows env' l f := by
  induction h with
  | nil => exact .nil
  | unit _ ih => exact .unit ih
  | text h _ ih => exact .text h ih
  | strct _ _ ih1 ih2 =>
    rw [← structItems_seen hs (hs.fields _)] at ih1
    rw [← structAttrs_seen (hs.fields _)]
    exact .strct ih1 ih2
  | enm _ _ ih1 ih2 =>
    rw [← variantItems_seen (hs.variants _)] at ih1
    exact .enm ih1 ih2

theorem hasTy_seen {env env' : Env} (hs : SeenSame env env') {ty : Ty} {v : Val} (h : HasTy env ty v) : HasTy env' ty v := by
  have back : ∀ i (p : Nat) f', (env'.strct i).fields[p]? = some f' → ∃ f, (env.strct i).fields[p]? = some f ∧ f'.kind = f.kind := by
    intro i p f' hf
    have := congrArg (fun l => l[p]?) (hs.fields i)
    simp only [List.getElem?_map, hf, Option.map_some] at this
    cases h1 : (env.strct i).fields[p]? with
    | none => rw [h1] at this; cases this
    | some f => rw [h1] at this; simp only [Option.map_some, Option.some.injEq, seen, Prod.mk.injEq] at this; exact ⟨f, rfl, this.1⟩
  have fwd : ∀ i (p : Nat) w, (env.enm i).variants[p]? = some w → ∃ w', (env'.enm i).variants[p]? = some w' ∧ w'.slot = w.slot := by
    intro i p w hw
    have := congrArg (fun l => l[p]?) (hs.variants i)
    simp only [List.getElem?_map, hw, Option.map_some] at this
    cases h1 : (env'.enm i).variants[p]? with
    | none => rw [h1] at this; cases this
    | some f => rw [h1] at this; simp only [Option.map_some, Option.some.injEq, seenVariant, Prod.mk.injEq] at this; exact ⟨f, rfl, this.2.1⟩
  induction h with
  | text h => exact .text h
  | @strct i vs len shape elems flats ih1 ih2 =>
    refine .strct (len.trans ?_) ?_ ?_ ?_
    · have := congrArg List.length (hs.fields i)
      simpa using this.symm
    · intro p f v hf hv
      obtain ⟨g, hg, hk⟩ := back _ _ _ hf
      rw [hk]
      exact shape p g v hg hv
    · intro p f s v w hf hv hk hw
      obtain ⟨g, hg, hk'⟩ := back _ _ _ hf
      exact ih1 p g s v w hg hv (hk' ▸ hk) hw
    · intro p f e v hf hv hk
      obtain ⟨g, hg, hk'⟩ := back _ _ _ hf
      exact ih2 p g e v hg hv (hk' ▸ hk)
  | unit hv hs =>
    obtain ⟨w', h1, h2⟩ := fwd _ _ _ hv
    exact .unit h1 (h2.trans hs)
  | payload hv hs card _ ih =>
    obtain ⟨w', h1, h2⟩ := fwd _ _ _ hv
    exact .payload h1 (h2.trans hs) card ih

end SX.Rewrite
