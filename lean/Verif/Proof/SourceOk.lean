import Verif.Spec.SourceOk
import Verif.Props.Source
import Verif.Props.Whole

/-
From the source to the types it declares, and back.
-/
namespace SX.SourceOk
open Spec SX.Gen Spec.Gen

/-! ### Names are unique -/

theorem prefixNs_unique {mapped : String → String → Prop} (hf : ∀ p u u', mapped p u → mapped p u' → u = u') {p : String} {a b : Option String}
    (ha : PrefixNs mapped p a) (hb : PrefixNs mapped p b) : a = b := by
  rcases ha with ⟨u, hu, rfl⟩ | ⟨hn, ha⟩ <;> rcases hb with ⟨u', hu', rfl⟩ | ⟨hn', hb⟩
  · rw [hf p u u' hu hu']
  · exact absurd hu (hn' u)
  · exact absurd hu' (hn u')
  · rcases ha with ⟨rfl, rfl⟩ | ⟨rfl, rfl⟩ <;> rcases hb with ⟨h, rfl⟩ | ⟨h, rfl⟩
    · rfl
    · exact absurd h (by decide)
    · exact absurd h (by decide)
    · rfl

theorem nameNs_unique {mapped : String → String → Prop} (hf : ∀ p u u', mapped p u → mapped p u' → u = u') {items : List NMeta} {a b : Option String}
    (ha : NameNs mapped items a) (hb : NameNs mapped items b) : a = b := by
  have no : ∀ {x}, NoneOf "prefix" items → ¬ LastOf "prefix" items x := by
    rintro x h ⟨p, q, hpq, _⟩
    exact h x (by rw [hpq]; simp)
  rcases ha with ⟨ha, rfl⟩ | ⟨s, p, h1, h2, ha⟩ <;> rcases hb with ⟨hb, rfl⟩ | ⟨s', p', h1', h2', hb⟩
  · rfl
  · exact absurd h1' (no ha)
  · exact absurd h1 (no hb)
  · have h := lastOf_unique h1 h1'
    injection h with h
    subst h
    rw [isTrim_iff] at h2 h2'
    subst h2 h2'
    exact prefixNs_unique hf ha hb

theorem attrIs_functional {ident : String} {attrs : List Attr} {r : MAttr} (h : AttrIs ident attrs r) (p u u' : String)
    (h1 : Mapped (attrItems attrs) p u) (h2 : Mapped (attrItems attrs) p u') : u = u' :=
  h.functional p u u' ((h.mappings p u).mpr h1) ((h.mappings p u').mpr h2)

theorem named_unique {mapped : String → String → Prop} (hf : ∀ p u u', mapped p u → mapped p u' → u = u') {items : List NMeta} {ident : String}
    {n n' : EName} (h : ∃ ns, NameNs mapped items ns ∧ LocalName ident items n.loc ∧ n.ns = ns.getD "")
    (h' : ∃ ns, NameNs mapped items ns ∧ LocalName ident items n'.loc ∧ n'.ns = ns.getD "") : n = n' := by
  obtain ⟨ns, h1, h2, h3⟩ := h
  obtain ⟨ns', h1', h2', h3'⟩ := h'
  have e1 := nameNs_unique hf h1 h1'
  have e2 := localName_unique h2 h2'
  subst e1
  cases n
  cases n'
  simp only at h2 h3 h2' h3' e2
  rw [h3, h3', e2]

/-! ### Fields and variants, one by one -/

/-- A field of the source and its field among the types declared. -/
structure FieldBoth (mapped : String → String → Prop) (ty : FieldTypes) (f : DField) (g : Field) : Prop where
  name : ∀ n, SourceName mapped f n ↔ g.name.expanded = n
  ns : ∀ ns, NameNs mapped (attrItems f.attrs) ns ↔ g.name.ns = ns
  element : SaysElement f ↔ ∃ s, g.kind = .element s
  «attribute» : word "attribute" ∈ attrItems f.attrs ↔ ∃ o t, g.kind = .attribute o t
  flatten : word "flatten" ∈ attrItems f.attrs ↔ ∃ e, g.kind = .flatten e
  flattenIs : ∀ e, g.kind = .flatten e → e = ty.flatten
  text : word "text" ∈ attrItems f.attrs ↔ ∃ t, g.kind = .text t

theorem fieldBoth_of {mapped : String → String → Prop} (hf : ∀ p u u', mapped p u → mapped p u' → u = u') {f : DField} {r : MField} (ty : FieldTypes)
    (h : FieldIs mapped f r) : FieldBoth mapped ty f (r.toField ty) := by
  have hm := h.mode
  refine ⟨fun n => ⟨fun hn => ?_, ?_⟩, fun ns => ⟨fun hn => ?_, ?_⟩, ?_, ?_, ?_, ?_, ?_⟩
  · exact named_unique hf ⟨r.name.ns, h.ns, h.loc, rfl⟩ hn
  · rintro rfl
    exact ⟨r.name.ns, h.ns, h.loc, rfl⟩
  · exact nameNs_unique hf h.ns hn
  · rintro rfl
    exact h.ns
  all_goals
    simp only [MField.toField, SaysElement, List.mem_cons, List.not_mem_nil, or_false, forall_eq_or_imp, forall_eq]
    generalize r.mode = m at hm
    cases hm <;> simp_all

theorem struct_both {d : Decl} {s : MStruct} (h : describe d = .ok (some (.strct s), [])) (ty : String → FieldTypes) :
    (s.toDef ty).fields.length = (fieldsOf d).length ∧
    ∀ (p : Nat) f, (fieldsOf d)[p]? = some f → ∃ g, (s.toDef ty).fields[p]? = some g ∧ FieldBoth (Maps d) (ty f.ident) f g := by
  obtain ⟨fields, hd, ha, hr⟩ := C37_description d _ h
  have hfo : fieldsOf d = fields := by unfold fieldsOf; rw [hd]
  rw [hfo]
  refine ⟨?_, ?_⟩
  · simp only [MStruct.toDef, List.length_map]
    clear hd h hfo ha
    generalize s.fields = l at hr
    induction hr with
    | nil => rfl
    | cons _ _ ih => simp [ih]
  · intro p f hf
    rcases hr.get p with ⟨h1, _⟩ | ⟨a, b, h1, h2, hab⟩
    · rw [hf] at h1; cases h1
    · rw [hf] at h1
      cases h1
      refine ⟨b.toField (ty b.ident), by simp [MStruct.toDef, h2], ?_⟩
      rw [hab.ident]
      exact fieldBoth_of (attrIs_functional ha) _ hab

theorem struct_both' {d : Decl} {s : MStruct} (h : describe d = .ok (some (.strct s), [])) (ty : String → FieldTypes) (p : Nat) (g : Field)
    (hg : (s.toDef ty).fields[p]? = some g) : ∃ f, (fieldsOf d)[p]? = some f ∧ FieldBoth (Maps d) (ty f.ident) f g := by
  obtain ⟨hl, hb⟩ := struct_both h ty
  have hp : p < (fieldsOf d).length := hl ▸ (List.getElem?_eq_some_iff.mp hg).1
  obtain ⟨g', h1, h2⟩ := hb p _ (List.getElem?_eq_getElem hp)
  rw [hg] at h1
  cases h1
  exact ⟨_, List.getElem?_eq_getElem hp, h2⟩

theorem struct_maps {d : Decl} {s : MStruct} (h : describe d = .ok (some (.strct s), [])) (p u : String) : (p, u) ∈ s.attr.namespaces ↔ Maps d p u := by
  obtain ⟨_, _, ha, _⟩ := C37_description d _ h
  exact ha.mappings p u

theorem enum_maps {d : Decl} {e : MEnum} (h : describe d = .ok (some (.enm e), [])) (p u : String) : (p, u) ∈ e.attr.namespaces ↔ Maps d p u := by
  obtain ⟨_, _, ha, _⟩ := C37_description d _ h
  exact ha.mappings p u

/-- A variant of the source and its variant among the types declared. -/
structure VariantBoth (mapped : String → String → Prop) (v : DVariant) (w : Variant) : Prop where
  skip : w.skip = true ↔ Skipped v
  name : ¬ Skipped v → ∀ n, VariantName mapped v n ↔ w.name.expanded = n
  ns : ¬ Skipped v → ∀ ns, NameNs mapped (attrItems v.attrs) ns ↔ w.name.ns = ns
  loc : ¬ Skipped v → ∀ l, LocalName v.ident (attrItems v.attrs) l ↔ w.name.loc = l

theorem enum_both {d : Decl} {e : MEnum} (h : describe d = .ok (some (.enm e), [])) (hn : ((variantsOf d).map fun v => v.ident).Nodup)
    (ty : String → Slot) (v : DVariant) (hv : v ∈ variantsOf d) : VariantBoth (Maps d) v (e.variant ty v) := by
  obtain ⟨vs, hd, ha, -⟩ := C37_description d _ h
  have hvo : variantsOf d = vs := by unfold variantsOf; rw [hd]
  rw [hvo] at hn hv
  obtain ⟨h1, _, _, h2⟩ := C40_variant d e vs ty h hd hn v hv
  have hf := attrIs_functional ha
  refine ⟨h1, fun hs n => ⟨fun hn => ?_, ?_⟩, fun hs ns => ⟨fun hn => ?_, ?_⟩, fun hs l => ⟨fun hl => ?_, ?_⟩⟩
  · exact named_unique hf ⟨_, (h2 hs).2.1, (h2 hs).1, rfl⟩ hn
  · rintro rfl
    exact ⟨_, (h2 hs).2.1, (h2 hs).1, rfl⟩
  · exact nameNs_unique hf (h2 hs).2.1 hn
  · rintro rfl
    exact (h2 hs).2.1
  · exact localName_unique (h2 hs).1 hl
  · rintro rfl
    exact (h2 hs).1

theorem map_getElem? {α β : Type} {f : α → β} {l : List α} {p : Nat} {b : β} (h : (l.map f)[p]? = some b) : ∃ a, l[p]? = some a ∧ f a = b := by
  rw [List.getElem?_map] at h
  cases hl : l[p]? with
  | none => rw [hl] at h; cases h
  | some a => rw [hl] at h; cases h; exact ⟨a, rfl, rfl⟩

end SX.SourceOk
