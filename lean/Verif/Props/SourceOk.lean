import Verif.Proof.SourceOk

/-
C75: crates judged by their source.
-/
namespace SX
open Spec SX.Gen Spec.Gen SX.SourceOk

/-! ### What is accepted -/

theorem struct_accepted {d : Decl} {fields : List DField} (ty : String → String) (hok : DeclOk d) (hr : ¬ UsesReserved d)
    (hd : d.data = .named fields) (ht : ∀ f ∈ fields, word "text" ∉ attrItems f.attrs) :
    ∃ c, derive (some d) (deriveDeserialize ty) = .done { errors := [], out := some (.strct c) } := by
  have hnt : ¬ OneTextField d := by
    rintro ⟨fs, hfs, ⟨f, hf, hm⟩, _⟩
    rw [hd] at hfs
    cases hfs
    cases hm with
    | text _ _ h => exact ht f hf h
  rcases C63_deserialize ty d with ⟨h | h, _⟩ | ⟨_, _, ⟨errs, out⟩, h1, _, h2, h3⟩
  · exact absurd h hr
  · exact absurd h hnt
  · have hrej : ¬ Rejected ({ errors := errs, out := out } : Expansion (ImplCode StructCode EnumCode)) := fun h => h2.mp h hok
    obtain ⟨t, c, hdes, ho, hreads⟩ := h3 hrej
    have he : errs = [] := Classical.not_not.mp hrej
    subst he
    simp only at ho
    subst ho
    cases c with
    | strct c => exact ⟨c, h1⟩
    | enm c =>
      obtain ⟨e, rfl, _⟩ := hreads
      obtain ⟨vs, hvs, _⟩ := hdes
      rw [hd] at hvs
      cases hvs

theorem enum_accepted {d : Decl} {vs : List DVariant} (ty : String → String) (hok : DeclOk d) (hr : ¬ UsesReserved d) (hd : d.data = .enm vs) :
    ∃ c, derive (some d) (deriveDeserialize ty) = .done { errors := [], out := some (.enm c) } := by
  have hnt : ¬ OneTextField d := by
    rintro ⟨fs, hfs, _⟩
    rw [hd] at hfs
    cases hfs
  rcases C63_deserialize ty d with ⟨h | h, _⟩ | ⟨_, _, ⟨errs, out⟩, h1, _, h2, h3⟩
  · exact absurd h hr
  · exact absurd h hnt
  · have hrej : ¬ Rejected ({ errors := errs, out := out } : Expansion (ImplCode StructCode EnumCode)) := fun h => h2.mp h hok
    obtain ⟨t, c, hdes, ho, hreads⟩ := h3 hrej
    have he : errs = [] := Classical.not_not.mp hrej
    subst he
    simp only at ho
    subst ho
    cases c with
    | enm c => exact ⟨c, h1⟩
    | strct c =>
      obtain ⟨s, rfl, _⟩ := hreads
      obtain ⟨fields, hfs, _⟩ := hdes
      rw [hd] at hfs
      cases hfs

theorem ser_accepted {d : Decl} (ty : String → String) (hok : DeclOk d) (hr : ¬ UsesReserved d) :
    ∃ t c, derive (some d) (deriveSerialize ty) = .done { errors := [], out := some c } ∧ Describes d t ∧ Writes d t c := by
  rcases C63_serialize ty d with ⟨h, _⟩ | ⟨_, ⟨errs, out⟩, h1, _, h2, h3⟩
  · exact absurd h hr
  · have hrej : ¬ Rejected ({ errors := errs, out := out } : Expansion (ImplCode SerCode SerEnumCode)) := fun h => h2.mp h hok
    obtain ⟨t, c, hdes, ho, hw⟩ := h3 hrej
    have he : errs = [] := Classical.not_not.mp hrej
    subst he
    simp only at ho
    subst ho
    exact ⟨t, c, h1, hdes, hw⟩

theorem described_reserved {d : Decl} {t : Described} (h : describe d = .ok (some t, [])) : ¬ UsesReserved d := fun hr => by
  rw [(C41_panics_iff d).mpr hr] at h
  cases h

/-- C75: the derive macros accept a crate exactly if its declarations are in order.  Then there is code for reading and code for writing. -/
theorem C75_accepted (c : Crate) :
    ((∃ code, Accepted c code) ↔ InOrder c) ∧ (InOrder c → ∃ ser, AcceptedSer c ser) := by
  refine ⟨⟨?_, ?_⟩, ?_⟩
  · rintro ⟨code, ha⟩
    refine ⟨fun i => ?_, fun i => ?_, fun i f hf hw => ?_, ha.fieldIdents, ha.variantIdents⟩
    · obtain ⟨s, h, _⟩ := Whole.derived_struct (ha.structs i)
      have hr := described_reserved h
      obtain ⟨fields, hd, _⟩ := C37_description _ _ h
      exact ⟨(C40_accepted_iff _ hr).mpr ⟨_, h⟩, hr, fields, hd⟩
    · obtain ⟨e, h, _⟩ := Whole.derived_enum (ha.enums i)
      have hr := described_reserved h
      obtain ⟨vs, hd, _⟩ := C37_description _ _ h
      exact ⟨(C40_accepted_iff _ hr).mpr ⟨_, h⟩, hr, vs, hd⟩
    · obtain ⟨s, h, _, hT⟩ := Whole.derived_struct (ha.structs i)
      obtain ⟨p, hp⟩ := List.getElem?_of_mem hf
      obtain ⟨fields, hd, _, hrow⟩ := C37_description _ _ h
      have hfo : fieldsOf (c.strct i) = fields := by unfold fieldsOf; rw [hd]
      rw [hfo] at hp
      rcases hrow.get p with ⟨h1, _⟩ | ⟨a, b, h1, h2, hab⟩
      · rw [hp] at h1; cases h1
      · rw [hp] at h1
        cases h1
        have hm := hab.mode
        have hb := hT b (List.mem_of_getElem? h2)
        generalize b.mode = m at hm hb
        cases hm <;> simp_all
  · intro h
    have hS : ∀ i, ∃ x, derive (some (c.strct i)) (deriveDeserialize (c.fieldTy i)) = .done { errors := [], out := some (.strct x) } := fun i => by
      obtain ⟨hok, hr, fields, hd⟩ := h.structs i
      refine struct_accepted _ hok hr hd ?_
      have := h.noText i
      unfold fieldsOf at this
      rwa [hd] at this
    have hE : ∀ i, ∃ x, derive (some (c.enm i)) (deriveDeserialize (c.payloadTy i)) = .done { errors := [], out := some (.enm x) } := fun i => by
      obtain ⟨hok, hr, vs, hd⟩ := h.enums i
      exact enum_accepted _ hok hr hd
    obtain ⟨sOf, hS⟩ := Classical.axiomOfChoice hS
    obtain ⟨eOf, hE⟩ := Classical.axiomOfChoice hE
    exact ⟨⟨sOf, eOf⟩, hS, hE, h.fieldIdents, h.variantIdents⟩
  · intro h
    have hS : ∀ i, ∃ x, derive (some (c.strct i)) (deriveSerialize (c.fieldTy i)) = .done { errors := [], out := some (.strct x) } := fun i => by
      obtain ⟨hok, hr, fields, hd⟩ := h.structs i
      obtain ⟨t, x, h1, h2, h3⟩ := ser_accepted (c.fieldTy i) hok hr
      cases x with
      | strct x => exact ⟨x, h1⟩
      | enm x =>
        obtain ⟨e, rfl, _⟩ := h3
        obtain ⟨vs, hvs, _⟩ := h2
        rw [hd] at hvs
        cases hvs
    have hE : ∀ i, ∃ x, derive (some (c.enm i)) (deriveSerialize (c.payloadTy i)) = .done { errors := [], out := some (.enm x) } := fun i => by
      obtain ⟨hok, hr, vs, hd⟩ := h.enums i
      obtain ⟨t, x, h1, h2, h3⟩ := ser_accepted (c.payloadTy i) hok hr
      cases x with
      | enm x => exact ⟨x, h1⟩
      | strct x =>
        obtain ⟨s, rfl, _⟩ := h3
        obtain ⟨fs, hfs, _⟩ := h2
        rw [hd] at hfs
        cases hfs
    obtain ⟨sOf, hS⟩ := Classical.axiomOfChoice hS
    obtain ⟨eOf, hE⟩ := Classical.axiomOfChoice hE
    exact ⟨⟨sOf, eOf⟩, hS, hE, h.fieldIdents, h.variantIdents⟩

/-! ### What is unambiguous -/

section
variable {c : Crate} {env : Env} (hd : DeclaresTypes c env)
include hd

theorem field_to (i p : Nat) (f : DField) (hf : (fieldsOf (c.strct i))[p]? = some f) :
    ∃ g, (env.strct i).fields[p]? = some g ∧ FieldBoth (Maps (c.strct i)) (c.means (c.fieldTy i f.ident)) f g := by
  obtain ⟨s, h1, h2⟩ := hd.structs i
  rw [h2]
  exact (struct_both h1 _).2 p f hf

theorem field_from (i p : Nat) (g : Field) (hg : (env.strct i).fields[p]? = some g) :
    ∃ f, (fieldsOf (c.strct i))[p]? = some f ∧ FieldBoth (Maps (c.strct i)) (c.means (c.fieldTy i f.ident)) f g := by
  obtain ⟨s, h1, h2⟩ := hd.structs i
  rw [h2] at hg
  exact struct_both' h1 _ p g hg

variable (hn : ∀ i, ((variantsOf (c.enm i)).map fun v => v.ident).Nodup)
include hn

theorem variant_to (i p : Nat) (v : DVariant) (hv : (variantsOf (c.enm i))[p]? = some v) :
    ∃ w, (env.enm i).variants[p]? = some w ∧ VariantBoth (Maps (c.enm i)) v w := by
  obtain ⟨e, h1, h2⟩ := hd.enums i
  rw [h2]
  exact ⟨e.variant _ v, by simp only [MEnum.toDef, List.getElem?_map, hv]; rfl, enum_both h1 (hn i) _ v (List.mem_of_getElem? hv)⟩

theorem variant_from (i p : Nat) (w : Variant) (hw : (env.enm i).variants[p]? = some w) :
    ∃ v, (variantsOf (c.enm i))[p]? = some v ∧ VariantBoth (Maps (c.enm i)) v w := by
  obtain ⟨e, h1, h2⟩ := hd.enums i
  rw [h2] at hw
  obtain ⟨v, hv, rfl⟩ := map_getElem? hw
  exact ⟨v, hv, enum_both h1 (hn i) _ v (List.mem_of_getElem? hv)⟩

/-- C75: the names of a crate do not clash in the source exactly if the types it declares are ones of which the claims about derived code were
proved. -/
theorem C75_apart : EnvOk env ↔ Apart c := by
  constructor
  · intro h
    have hu : Unskipped c := by
      intro i v hv hs
      obtain ⟨p, hp⟩ := List.getElem?_of_mem hv
      obtain ⟨w, hw, hb⟩ := variant_to hd hn i p v hp
      have := h.noSkip i w (List.mem_of_getElem? hw)
      rw [hb.skip.mpr hs] at this
      cases this
    refine ⟨?_, ?_, ?_, ?_, ?_, hu⟩
    · intro i p q f g n hf hg he he' hn1 hn2
      obtain ⟨f', hf', hb⟩ := field_to hd i p f hf
      obtain ⟨g', hg', hb'⟩ := field_to hd i q g hg
      obtain ⟨s, hs⟩ := hb.element.mp he
      obtain ⟨s', hs'⟩ := hb'.element.mp he'
      exact h.elems i p q f' g' s s' hf' hg' hs hs' (((hb.name n).mp hn1).trans ((hb'.name n).mp hn2).symm)
    · intro i p q f g n hf hg he he' hn1 hn2
      obtain ⟨f', hf', hb⟩ := field_to hd i p f hf
      obtain ⟨g', hg', hb'⟩ := field_to hd i q g hg
      obtain ⟨o, t, hs⟩ := hb.attribute.mp he
      obtain ⟨o', t', hs'⟩ := hb'.attribute.mp he'
      exact h.attrs i p q f' g' o t o' t' hf' hg' hs hs' (((hb.name n).mp hn1).trans ((hb'.name n).mp hn2).symm)
    · intro i f hf ht
      obtain ⟨p, hp⟩ := List.getElem?_of_mem hf
      obtain ⟨g, hg, hb⟩ := field_to hd i p f hp
      obtain ⟨t, hk⟩ := hb.text.mp ht
      exact h.noText i g t (List.mem_of_getElem? hg) hk
    · intro i p q v w n hv hw hn1 hn2
      obtain ⟨v', hv', hb⟩ := variant_to hd hn i p v hv
      obtain ⟨w', hw', hb'⟩ := variant_to hd hn i q w hw
      exact h.variants i p q v' w' hv' hw' (((hb.name (hu i v (List.mem_of_getElem? hv)) n).mp hn1).trans
        ((hb'.name (hu i w (List.mem_of_getElem? hw)) n).mp hn2).symm)
    · intro i v hv w hw l l' h1 h2 h3 h4
      obtain ⟨p, hp⟩ := List.getElem?_of_mem hv
      obtain ⟨q, hq⟩ := List.getElem?_of_mem hw
      obtain ⟨v', hv', hb⟩ := variant_to hd hn i p v hp
      obtain ⟨w', hw', hb'⟩ := variant_to hd hn i q w hq
      have hsv := hu i v hv
      have hsw := hu i w hw
      have := h.noneFirst i v'.name (List.mem_map.mpr ⟨_, List.mem_of_getElem? hv', rfl⟩) w'.name
        (List.mem_map.mpr ⟨_, List.mem_of_getElem? hw', rfl⟩) ((hb.ns hsv _).mp h1) ((hb'.ns hsw _).mp h2)
      rwa [(hb.loc hsv l).mp h3, (hb'.loc hsw l').mp h4] at this
  · intro h
    refine ⟨?_, ?_, ?_, ?_, ?_, ?_⟩
    · intro i p q f g s s' hf hg he he' hname
      obtain ⟨f', hf', hb⟩ := field_from hd i p f hf
      obtain ⟨g', hg', hb'⟩ := field_from hd i q g hg
      exact h.elems i p q f' g' f.name.expanded hf' hg' (hb.element.mpr ⟨s, he⟩) (hb'.element.mpr ⟨s', he'⟩) ((hb.name _).mpr rfl)
        ((hb'.name _).mpr hname.symm)
    · intro i p q f g o t o' t' hf hg he he' hname
      obtain ⟨f', hf', hb⟩ := field_from hd i p f hf
      obtain ⟨g', hg', hb'⟩ := field_from hd i q g hg
      exact h.attrs i p q f' g' f.name.expanded hf' hg' (hb.attribute.mpr ⟨o, t, he⟩) (hb'.attribute.mpr ⟨o', t', he'⟩) ((hb.name _).mpr rfl)
        ((hb'.name _).mpr hname.symm)
    · intro i f t hf hk
      obtain ⟨p, hp⟩ := List.getElem?_of_mem hf
      obtain ⟨g, hg, hb⟩ := field_from hd i p f hp
      exact h.noText i g (List.mem_of_getElem? hg) (hb.text.mpr ⟨t, hk⟩)
    · intro i p q v w hv hw hname
      obtain ⟨v', hv', hb⟩ := variant_from hd hn i p v hv
      obtain ⟨w', hw', hb'⟩ := variant_from hd hn i q w hw
      exact h.variants i p q v' w' v.name.expanded hv' hw' ((hb.name (h.noSkip i v' (List.mem_of_getElem? hv')) _).mpr rfl)
        ((hb'.name (h.noSkip i w' (List.mem_of_getElem? hw')) _).mpr hname.symm)
    · intro i dv hdv dw hdw h1 h2
      obtain ⟨v, hv, rfl⟩ := List.mem_map.mp hdv
      obtain ⟨w, hw, rfl⟩ := List.mem_map.mp hdw
      obtain ⟨p, hp⟩ := List.getElem?_of_mem hv
      obtain ⟨q, hq⟩ := List.getElem?_of_mem hw
      obtain ⟨v', hv', hb⟩ := variant_from hd hn i p v hp
      obtain ⟨w', hw', hb'⟩ := variant_from hd hn i q w hq
      have mv := List.mem_of_getElem? hv'
      have mw := List.mem_of_getElem? hw'
      exact h.noneFirst i v' mv w' mw v.name.loc w.name.loc ((hb.ns (h.noSkip i v' mv) _).mpr h1) ((hb'.ns (h.noSkip i w' mw) _).mpr h2)
        ((hb.loc (h.noSkip i v' mv) _).mpr rfl) ((hb'.loc (h.noSkip i w' mw) _).mpr rfl)
    · intro i w hw
      obtain ⟨p, hp⟩ := List.getElem?_of_mem hw
      obtain ⟨v, hv, hb⟩ := variant_from hd hn i p w hp
      cases hs : w.skip with
      | false => rfl
      | true => exact absurd (hb.skip.mp hs) (h.noSkip i v (List.mem_of_getElem? hv))

/-- C75: the same for flattened fields. -/
theorem C75_flattens (hu : Unskipped c) : FlattenOk env ↔ FlattensApart c := by
  constructor
  · intro h
    refine ⟨?_, ?_⟩
    · intro i p q f g hf hg h1 h2
      obtain ⟨f', hf', hb⟩ := field_to hd i p f hf
      obtain ⟨g', hg', hb'⟩ := field_to hd i q g hg
      obtain ⟨e, he⟩ := hb.flatten.mp h1
      obtain ⟨e', he'⟩ := hb'.flatten.mp h2
      exact h.one i p q f' g' e e' hf' hg' he he'
    · intro i f g e n hf hg h1 h2 he h3 v hv h4
      obtain ⟨p, hp⟩ := List.getElem?_of_mem hf
      obtain ⟨q, hq⟩ := List.getElem?_of_mem hg
      obtain ⟨f', hf', hb⟩ := field_to hd i p f hp
      obtain ⟨g', hg', hb'⟩ := field_to hd i q g hq
      obtain ⟨s, hs⟩ := hb.element.mp h1
      obtain ⟨e', he'⟩ := hb'.flatten.mp h2
      have := hb'.flattenIs e' he'
      rw [← he] at this
      subst this
      obtain ⟨r, hr⟩ := List.getElem?_of_mem hv
      obtain ⟨w, hw, hbw⟩ := variant_to hd hn e' r v hr
      exact h.apart i f' g' s e' w (List.mem_of_getElem? hf') (List.mem_of_getElem? hg') hs he' (List.mem_of_getElem? hw)
        (((hbw.name (hu e' v hv) n).mp h4).trans ((hb.name n).mp h3).symm)
  · intro h
    refine ⟨?_, ?_⟩
    · intro i p q f g e e' hf hg h1 h2
      obtain ⟨f', hf', hb⟩ := field_from hd i p f hf
      obtain ⟨g', hg', hb'⟩ := field_from hd i q g hg
      exact h.one i p q f' g' hf' hg' (hb.flatten.mpr ⟨e, h1⟩) (hb'.flatten.mpr ⟨e', h2⟩)
    · intro i f g s e w hf hg h1 h2 hw hname
      obtain ⟨p, hp⟩ := List.getElem?_of_mem hf
      obtain ⟨q, hq⟩ := List.getElem?_of_mem hg
      obtain ⟨f', hf', hb⟩ := field_from hd i p f hp
      obtain ⟨g', hg', hb'⟩ := field_from hd i q g hq
      obtain ⟨r, hr⟩ := List.getElem?_of_mem hw
      obtain ⟨v, hv, hbw⟩ := variant_from hd hn e r w hr
      have mv := List.mem_of_getElem? hv
      exact h.apart i f' g' e f.name.expanded (List.mem_of_getElem? hf') (List.mem_of_getElem? hg') (hb.element.mpr ⟨s, h1⟩)
        (hb'.flatten.mpr ⟨e, h2⟩) (hb'.flattenIs e h2) ((hb.name _).mpr rfl) v mv ((hbw.name (hu e v mv) _).mpr hname)

omit hn

/-- C75: the same for mappings of prefixes. -/
theorem C75_maps : (∀ ty, ∀ x ∈ declaredNs env ty, MayDeclare x.1 x.2) ↔ MapsOk c := by
  constructor
  · intro h
    refine ⟨fun i p u hm => ?_, fun i p u hm => ?_⟩
    · obtain ⟨s, h1, h2⟩ := hd.structs i
      refine h (.strct i) (p, u) ?_
      simp only [declaredNs, h2, MStruct.toDef]
      exact (struct_maps h1 p u).mpr hm
    · obtain ⟨e, h1, h2⟩ := hd.enums i
      refine h (.enm i) (p, u) ?_
      simp only [declaredNs, h2, MEnum.toDef]
      exact (enum_maps h1 p u).mpr hm
  · intro h ty x hx
    cases ty with
    | text t => cases hx
    | strct i =>
      obtain ⟨s, h1, h2⟩ := hd.structs i
      simp only [declaredNs, h2, MStruct.toDef] at hx
      exact h.structs i x.1 x.2 ((struct_maps h1 _ _).mp hx)
    | enm i =>
      obtain ⟨e, h1, h2⟩ := hd.enums i
      simp only [declaredNs, h2, MEnum.toDef] at hx
      exact h.enums i x.1 x.2 ((enum_maps h1 _ _).mp hx)

/-- C75: the same for default namespaces. -/
theorem C75_no_default : (∀ ty, asksDefault env ty = false) ↔ NoDefault c := by
  have hS : ∀ i, (env.strct i).namespaces.any (fun x => x.1 == "") = false ↔ ∀ u, ¬ Maps (c.strct i) "" u := by
    intro i
    obtain ⟨s, h1, h2⟩ := hd.structs i
    simp only [h2, MStruct.toDef, List.any_eq_false, beq_iff_eq]
    constructor
    · intro h u hm
      exact h ("", u) ((struct_maps h1 _ _).mpr hm) rfl
    · rintro h ⟨p, u⟩ hx rfl
      exact h u ((struct_maps h1 _ _).mp hx)
  have hE : ∀ i, (env.enm i).namespaces.any (fun x => x.1 == "") = false ↔ ∀ u, ¬ Maps (c.enm i) "" u := by
    intro i
    obtain ⟨e, h1, h2⟩ := hd.enums i
    simp only [h2, MEnum.toDef, List.any_eq_false, beq_iff_eq]
    constructor
    · intro h u hm
      exact h ("", u) ((enum_maps h1 _ _).mpr hm) rfl
    · rintro h ⟨p, u⟩ hx rfl
      exact h u ((enum_maps h1 _ _).mp hx)
  constructor
  · intro h
    refine ⟨fun i => (hS i).mp ?_, fun i => (hE i).mp (h (.enm i))⟩
    have := h (.strct i)
    simp only [asksDefault, Bool.or_eq_false_iff] at this
    exact this.1
  · intro h ty
    cases ty with
    | text t => rfl
    | enm i => exact (hE i).mpr (h.enums i)
    | strct i =>
      simp only [asksDefault, Bool.or_eq_false_iff]
      refine ⟨(hS i).mpr (h.structs i), ?_⟩
      rw [List.any_eq_false]
      intro f hf
      cases f.kind with
      | flatten e =>
        simp only [Bool.not_eq_true]
        exact (hE e).mpr (h.enums e)
      | _ => simp

include hn

/-- C75: the same for names without a namespace. -/
theorem C75_prefixes (hu : Unskipped c) : AllPrefixed env ↔ AllHavePrefix c := by
  constructor
  · intro h
    refine ⟨fun i f hf he hnone => ?_, fun i v hv hnone => ?_⟩
    · obtain ⟨p, hp⟩ := List.getElem?_of_mem hf
      obtain ⟨g, hg, hb⟩ := field_to hd i p f hp
      obtain ⟨s, hs⟩ := hb.element.mp he
      exact h.fields i g s (List.mem_of_getElem? hg) hs ((hb.ns _).mp hnone)
    · obtain ⟨p, hp⟩ := List.getElem?_of_mem hv
      obtain ⟨w, hw, hb⟩ := variant_to hd hn i p v hp
      refine h.variants i w (List.mem_of_getElem? hw) ?_ ((hb.ns (hu i v hv) _).mp hnone)
      cases hs : w.skip with
      | false => rfl
      | true => exact absurd (hb.skip.mp hs) (hu i v hv)
  · intro h
    refine ⟨fun i g s hg hk hnone => ?_, fun i w hw hs hnone => ?_⟩
    · obtain ⟨p, hp⟩ := List.getElem?_of_mem hg
      obtain ⟨f, hf, hb⟩ := field_from hd i p g hp
      exact h.fields i f (List.mem_of_getElem? hf) (hb.element.mpr ⟨s, hk⟩) ((hb.ns _).mpr hnone)
    · obtain ⟨p, hp⟩ := List.getElem?_of_mem hw
      obtain ⟨v, hv, hb⟩ := variant_from hd hn i p w hp
      have mv := List.mem_of_getElem? hv
      exact h.variants i v mv ((hb.ns (hu i v mv) _).mpr hnone)

end

/-! ### Programs -/

theorem root_ns {c : Crate} {ser : SerEmitted} (hs : AcceptedSer c ser) (hm : MapsOk c) {ty : Ty} {name : EName} (hn : c.root ser ty = some name)
    (hr : RootHasPrefix c ty) : name.ns ≠ "" := by
  have key : ∀ (d : Decl) (r : MAttr), AttrIs d.ident d.attrs r → (∀ p u, Maps d p u → MayDeclare p u) →
      ¬ NameNs (Maps d) (attrItems d.attrs) none → r.name.ns.getD "" ≠ "" := by
    intro d r ha hmap hno he
    have hns := ha.ns
    cases hx : r.name.ns with
    | none => rw [hx] at hns; exact hno hns
    | some u =>
      rw [hx] at hns he
      simp only [Option.getD_some] at he
      subst he
      rcases hns with ⟨_, h⟩ | ⟨s, p, _, _, h⟩
      · cases h
      · rcases h with ⟨u, hu, h⟩ | ⟨_, ⟨_, h⟩ | ⟨_, h⟩⟩
        · cases h
          exact (hmap p "" hu).2.1 rfl
        · exact absurd h (by decide)
        · cases h
  cases ty with
  | text t => cases hn
  | strct i =>
    obtain ⟨t, h1, h2⟩ := Whole.derived_ser (hs.structs i)
    cases t with
    | enm e => cases h2
    | strct s =>
      simp only [Crate.root, Option.some.injEq] at hn
      injection h2 with h2
      rw [← hn, h2]
      obtain ⟨_, _, ha, _⟩ := C37_description _ _ h1
      exact key (c.strct i) s.attr ha (hm.structs i) (hr _ rfl)
  | enm i =>
    obtain ⟨t, h1, h2⟩ := Whole.derived_ser (hs.enums i)
    cases t with
    | strct s => cases h2
    | enm e =>
      simp only [Crate.root, Option.some.injEq] at hn
      injection h2 with h2
      rw [← hn, h2]
      obtain ⟨_, _, ha, _⟩ := C37_description _ _ h1
      exact key (c.enm i) e.attr ha (hm.enums i) (hr _ rfl)

/-- C75: a crate whose declarations are in order and whose names do not clash, as seen in its source, compiles to code, which reads documents:
without panics, and as values exactly if they are documents for these. -/
theorem C75_reads (c : Crate) (ho : InOrder c) (ha : Apart c) :
    ∃ code types env, Accepted c code ∧ c.Tied code types ∧ DeclaresTypes c env ∧ ∀ (dbg : Bool) (ty : Ty) (d : Doc),
      (∃ r, c.read code types dbg ty d.input = .ok r) ∧
      ∀ v, c.read code types dbg ty d.input = .ok (.ok v) ↔ bodyValue env (d.root.body env) ty = some v := by
  obtain ⟨code, hcode⟩ := (C75_accepted c).1.mpr ho
  obtain ⟨types, ht, _⟩ := C65_types c code
  obtain ⟨env, henv⟩ := C65_env c code hcode
  exact ⟨code, types, env, hcode, ht, henv, fun dbg ty d =>
    C65_value c code types env hcode ha.noSkip henv ht ((C75_apart henv ho.variantIdents).mpr ha) dbg ty d⟩

/-- C75: if, besides, flattened fields do not clash, prefixes are mapped properly, and elements without a namespace do not meet default namespaces, then
it reads back exactly the `Readable` values from what it wrote. -/
theorem C75_roundtrip (c : Crate) (ho : InOrder c) (ha : Apart c) (hf : FlattensApart c) (hm : MapsOk c) (ty : Ty)
    (hc : NoDefault c ∨ (AllHavePrefix c ∧ RootHasPrefix c ty)) :
    ∃ code types ser env, Accepted c code ∧ c.Tied code types ∧ AcceptedSer c ser ∧ DeclaresTypes c env ∧
      ∀ (dbg dbg' : Bool) (sink : Sink) (name : EName) (v : Val) (s : WState) (d : Doc), c.root ser ty = some name → HasTy env ty v →
        c.write ser dbg sink name ty v = .ok (s, .ok ()) → ReadsBack s.out d →
        (c.read code types dbg' ty d.input = .ok (.ok v) ↔ Readable env ty v) := by
  obtain ⟨code, hcode⟩ := (C75_accepted c).1.mpr ho
  obtain ⟨ser, hser⟩ := (C75_accepted c).2 ho
  obtain ⟨types, ht, _⟩ := C65_types c code
  obtain ⟨env, henv⟩ := C65_env c code hcode
  refine ⟨code, types, ser, env, hcode, ht, hser, henv, fun dbg dbg' sink name v s d hn hv hw hb => ?_⟩
  exact C65_roundtrip c code types ser env hcode hser ha.noSkip henv ht ((C75_apart henv ho.variantIdents).mpr ha)
    ((C75_flattens henv ho.variantIdents ha.noSkip).mpr hf) ((C75_maps henv).mpr hm) dbg dbg' sink ty name hn
    (hc.imp (C75_no_default henv).mpr fun h => ⟨(C75_prefixes henv ho.variantIdents ha.noSkip).mpr h.1, root_ns hser hm hn h.2⟩) v hv s hw d hb

/-! ### Examples -/

namespace ExCrate

theorem inOrder : InOrder crate := (C75_accepted crate).1.mp ⟨code, accepted⟩

theorem apart : Apart crate := (C75_apart declares accepted.variantIdents).mp env_ok

end ExCrate

/-- The conditions hold of the crate of `Folder` and `Kind`, so it reads back what it wrote. -/
example : InOrder ExCrate.crate ∧ Apart ExCrate.crate ∧ FlattensApart ExCrate.crate ∧ MapsOk ExCrate.crate ∧
    (NoDefault ExCrate.crate ∨ (AllHavePrefix ExCrate.crate ∧ RootHasPrefix ExCrate.crate (.strct 0))) :=
  ⟨ExCrate.inOrder, ExCrate.apart, (C75_flattens ExCrate.declares ExCrate.accepted.variantIdents ExCrate.unskipped).mp ExCrate.env_flatten,
    (C75_maps ExCrate.declares).mp ExCrate.mappings, .inl ((C75_no_default ExCrate.declares).mp fun ty => by cases ty <;> rfl)⟩

/-- ```
struct Twice { #[static_xml(rename = "a")] x: String, a: String }
```
is accepted, but its names clash. -/
def ExCrate.twice : Crate := { ExCrate.crate with
  strct := fun _ => { ident := "Twice", attrs := [], data := .named [{ ident := "x", attrs := [.list [kv "rename" "a"]] }, { ident := "a", attrs := [] }] } }

example : InOrder ExCrate.twice ∧ ¬ Apart ExCrate.twice := by
  have hd : describe (ExCrate.twice.strct 0) = .ok (some (.strct { attr := { name := { loc := "Twice", pfx := none, ns := none }, namespaces := [] }, fields := [
    { ident := "x", mode := .element, default := false, name := { loc := "a", pfx := none, ns := none } },
    { ident := "a", mode := .element, default := false, name := { loc := "a", pfx := none, ns := none } }] }), []) := rfl
  have hr : ¬ UsesReserved (ExCrate.twice.strct 0) := described_reserved hd
  refine ⟨⟨fun i => ⟨(C40_accepted_iff _ hr).mpr ⟨_, hd⟩, hr, _, rfl⟩, ExCrate.inOrder.enums, fun i => ?_, fun i => ?_, ExCrate.inOrder.variantIdents⟩, ?_⟩
  · show ∀ f ∈ fieldsOf (ExCrate.twice.strct 0), _
    decide
  · show ((fieldsOf (ExCrate.twice.strct 0)).map fun f => unraw f.ident).Nodup
    decide
  · intro h
    have := h.elems 0 0 1 { ident := "x", attrs := [.list [kv "rename" "a"]] } { ident := "a", attrs := [] } { ns := "", loc := "a" } rfl rfl
      (by unfold SaysElement; decide) (by unfold SaysElement; decide)
      ⟨none, .inl ⟨fun l h => by simp [attrItems, kv] at h, rfl⟩, .inr ⟨[], [], rfl, nofun⟩, rfl⟩
      ⟨none, .inl ⟨fun l h => by simp [attrItems] at h, rfl⟩, .inl ⟨fun l h => by simp [attrItems] at h, rfl⟩, rfl⟩
    cases this

/-- So for this crate: -/
example := C75_reads ExCrate.crate ExCrate.inOrder ExCrate.apart
example := C75_roundtrip ExCrate.crate ExCrate.inOrder ExCrate.apart ((C75_flattens ExCrate.declares ExCrate.accepted.variantIdents ExCrate.unskipped).mp ExCrate.env_flatten)
  ((C75_maps ExCrate.declares).mp ExCrate.mappings) (.strct 0) (.inl ((C75_no_default ExCrate.declares).mp fun ty => by cases ty <;> rfl))

end SX
