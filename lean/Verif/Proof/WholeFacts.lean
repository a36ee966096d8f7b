import Verif.Proof.WholeRead
import Verif.Spec.Whole

/-
What is used in `Proof/WholeRead.lean`, from declarations that are accepted.
-/
namespace SX.Whole
open SX.Open Spec Spec.Open SX.Gen Spec.Gen

theorem derived {Code : Type} {d : Decl} {f : Decl → MacroRun Code} {out : Code} (h : derive (some d) f = .done { errors := [], out := some out }) :
    returns (f d) = some (some out) ∧ reports (f d) = [] := by
  rw [C63_derive] at h
  simp only at h
  cases hr : returns (f d) with
  | none => rw [hr] at h; cases h
  | some o =>
    rw [hr] at h
    simp only [End.done.injEq, Expansion.mk.injEq] at h
    exact ⟨by rw [h.2], h.1⟩

/-- What the declaration of a struct describes, and the code for it. -/
theorem derived_de {ty : String → String} {d : Decl} {out : ImplCode StructCode EnumCode}
    (h : derive (some d) (deriveDeserialize ty) = .done { errors := [], out := some out }) :
    ∃ t, describe d = .ok (some t, []) ∧
      match t with
      | .strct s => ∃ code, structCode (GStruct.ofDescribed d.ident ty s) = .ok code ∧ out = .strct code
      | .enm e => out = .enm (enumCode (GEnum.ofDescribed d.ident ty e)) := by
  obtain ⟨h1, h2⟩ := derived h
  unfold deriveDeserialize at h1 h2
  cases hd : describe d with
  | error f => rw [hd] at h1; cases h1
  | ok x =>
    obtain ⟨r, errs⟩ := x
    rw [hd] at h1 h2
    simp only [returns_pushAll, reports_pushAll] at h1 h2
    obtain ⟨rfl, h3⟩ := List.append_eq_nil_iff.mp h2
    rcases r with _ | ⟨s | e⟩
    · simp [returns] at h1
    · refine ⟨_, rfl, ?_⟩
      cases hc : structCode (GStruct.ofDescribed d.ident ty s) with
      | error f => simp [hc, returns] at h1
      | ok code =>
        simp only [hc, returns, Option.some.injEq] at h1
        exact ⟨code, hc, h1.symm⟩
    · refine ⟨_, rfl, ?_⟩
      simp only [returns, Option.some.injEq] at h1
      exact h1.symm

theorem derived_struct {ty : String → String} {d : Decl} {code : StructCode}
    (h : derive (some d) (deriveDeserialize ty) = .done { errors := [], out := some (.strct code) }) :
    ∃ s, describe d = .ok (some (.strct s), []) ∧ structCode (GStruct.ofDescribed d.ident ty s) = .ok code ∧ ∀ f ∈ s.fields, f.mode ≠ .text := by
  obtain ⟨t, h1, h2⟩ := derived_de h
  cases t with
  | enm e => cases h2
  | strct s =>
    obtain ⟨c, hc, h2⟩ := h2
    injection h2 with h2
    subst h2
    refine ⟨s, h1, hc, fun f hf hm => ?_⟩
    rw [(C59_panics_iff d.ident ty s).mpr ⟨f, hf, hm⟩] at hc
    cases hc

theorem derived_enum {ty : String → String} {d : Decl} {code : EnumCode}
    (h : derive (some d) (deriveDeserialize ty) = .done { errors := [], out := some (.enm code) }) :
    ∃ e, describe d = .ok (some (.enm e), []) ∧ code = enumCode (GEnum.ofDescribed d.ident ty e) := by
  obtain ⟨t, h1, h2⟩ := derived_de h
  cases t with
  | enm e => injection h2 with h2; exact ⟨e, h1, h2⟩
  | strct s => obtain ⟨_, _, h2⟩ := h2; cases h2

theorem fieldsOf_data {d : Decl} {s : MStruct} (h : Describes d (.strct s)) : d.data = .named (fieldsOf d) := by
  obtain ⟨fields, hf, _⟩ := h
  unfold fieldsOf
  rw [hf]

theorem described_idents {d : Decl} {s : MStruct} (h : Describes d (.strct s)) : (s.fields.map fun f => f.ident) = (fieldsOf d).map fun f => f.ident := by
  obtain ⟨fields, hf, -, hr⟩ := h
  have hfo : fieldsOf d = fields := by unfold fieldsOf; rw [hf]
  rw [hfo]
  clear hf hfo
  generalize s.fields = l at hr
  induction hr with
  | nil => rfl
  | cons hx _ ih => simp [hx.ident, ih]

theorem decl_eq {c : Crate} {i : Nat} {s : MStruct} (h : Describes (c.strct i) (.strct s)) : c.decl i = declOf (c.fieldTy i) s := by
  unfold Crate.decl declOf
  rw [fieldsOf_data h]
  have := congrArg (List.map fun x => (x, c.fieldTy i x)) (described_idents h)
  simpa [List.map_map, Function.comp_def] using this.symm

theorem filter_unskipped {vs : List DVariant} (h : ∀ v ∈ vs, ¬ Skipped v) : (vs.filter fun v => decide (word "skip" ∉ attrItems v.attrs)) = vs := by
  rw [List.filter_eq_self]
  intro v hv
  have := h v hv
  unfold Skipped at this
  simpa using this

/-- Variants are found by their identifiers. -/
theorem variants_eq {mapped : String → String → Prop} {vs : List DVariant} {l : List MVariant} (h : Rowwise (VariantIs mapped) vs l)
    (hn : (vs.map fun v => v.ident).Nodup) (ty : String → Slot) (e : MEnum) (he : ∀ w ∈ l, e.variants.find? (fun x => x.ident == w.ident) = some w) :
    vs.map (e.variant ty) = l.map fun w => { name := w.name.declared, slot := if w.payload then some (ty w.ident) else none, skip := false } := by
  induction h with
  | nil => rfl
  | cons hx _ ih =>
    rename_i v w vs l hr
    simp only [List.map_cons, List.nodup_cons] at hn ⊢
    rw [ih hn.2 (fun w hw => he w (by simp [hw]))]
    have := he w (by simp)
    unfold MEnum.variant
    rw [← hx.ident, this]

theorem find_ident {l : List MVariant} (hn : (l.map fun v => v.ident).Nodup) {w : MVariant} (h : w ∈ l) :
    l.find? (fun x => x.ident == w.ident) = some w := by
  induction l with
  | nil => simp at h
  | cons x l ih =>
    simp only [List.map_cons, List.nodup_cons] at hn
    rw [List.find?_cons]
    by_cases hx : x.ident = w.ident
    · rw [show (x.ident == w.ident) = true by simpa using hx]
      rcases List.mem_cons.mp h with rfl | h
      · rfl
      · exact absurd (List.mem_map.mpr ⟨w, h, hx.symm⟩) hn.1
    · rw [show (x.ident == w.ident) = false by simpa using hx]
      rcases List.mem_cons.mp h with rfl | h
      · exact absurd rfl hx
      · exact ih hn.2 h

theorem declVariants_eq (d : Decl) : declVariants d = variantsOf d := rfl

/-- Enums without skipped variants. -/
theorem described_variants {d : Decl} {e : MEnum} (h : Describes d (.enm e)) (hn : ((variantsOf d).map fun v => v.ident).Nodup)
    (hs : ∀ v ∈ variantsOf d, ¬ Skipped v) (ty : String → Slot) :
    (variantsOf d).map (e.variant ty) = e.variants.map (fun w =>
      { name := w.name.declared, slot := if w.payload then some (ty w.ident) else none, skip := false }) ∧
    ((variantsOf d).map fun v => v.ident) = e.variants.map fun v => v.ident := by
  have hn' := described_nodup h hn
  obtain ⟨vs, hvs, -, hr, -⟩ := h
  have hvo : variantsOf d = vs := by unfold variantsOf; rw [hvs]
  rw [hvo] at hn hs ⊢
  rw [filter_unskipped hs] at hr
  exact ⟨variants_eq hr hn ty e fun w hw => find_ident hn' hw, (rowwise_idents hr).symm⟩

theorem facts {c : Crate} {code : Emitted} {types : Types} {env : Env} (ha : Accepted c code) (hu : Unskipped c) (hd : DeclaresTypes c env)
    (ht : c.Tied code types) : ∃ sOf eOf, Facts c code types env sOf eOf := by
  have hS : ∀ i, ∃ s, describe (c.strct i) = .ok (some (.strct s), []) ∧ (env.strct i = s.toDef fun f => c.means (c.fieldTy i f)) ∧
      structCode (GStruct.ofDescribed (c.strct i).ident (c.fieldTy i) s) = .ok (code.strct i) ∧ ∀ f ∈ s.fields, f.mode ≠ .text := by
    intro i
    obtain ⟨s, h1, h2⟩ := hd.structs i
    obtain ⟨s', h3, h4, h5⟩ := derived_struct (ha.structs i)
    rw [h1] at h3
    cases h3
    exact ⟨s, h1, h2, h4, h5⟩
  have hE : ∀ i, ∃ e, describe (c.enm i) = .ok (some (.enm e), []) ∧
      (env.enm i = e.toDef (c.enm i).ident (variantsOf (c.enm i)) fun v => (c.means (c.payloadTy i v)).element) ∧
      code.enm i = enumCode (GEnum.ofDescribed (c.enm i).ident (c.payloadTy i) e) := by
    intro i
    obtain ⟨e, h1, h2⟩ := hd.enums i
    obtain ⟨e', h3, h4⟩ := derived_enum (ha.enums i)
    rw [h1] at h3
    cases h3
    exact ⟨e, h1, h2, h4⟩
  obtain ⟨sOf, hS⟩ := Classical.axiomOfChoice hS
  obtain ⟨eOf, hE⟩ := Classical.axiomOfChoice hE
  refine ⟨sOf, eOf, .mk ht (fun i => ?_) (fun i => ?_) (fun i => (hS i).2.2.2) (fun e => ?_) (fun e => ?_) (fun e => ?_) (fun e => ?_)⟩
  · obtain ⟨h1, h2, h3, h4⟩ := hS i
    have hdes := C37_description _ _ h1
    obtain ⟨cd, h5, h6⟩ := C58_struct types (c.strct i).ident (c.fieldTy i) (sOf i) h4 (described_fields_nodup hdes (ha.fieldIdents i))
    rw [h3] at h5
    injection h5 with h5
    subst h5
    rw [← decl_eq hdes] at h6
    exact h6
  · rw [(hS i).2.1]
    rfl
  · obtain ⟨h1, h2, h3⟩ := hE e
    have hdes := C37_description _ _ h1
    have := C58_enum types (c.enm e).ident (c.payloadTy e) (eOf e) (described_nodup hdes (ha.variantIdents e))
    rw [← h3] at this
    rw [h2]
    exact this
  · obtain ⟨h1, h2, h3⟩ := hE e
    have hdes := C37_description _ _ h1
    rw [h2]
    exact (described_variants hdes (ha.variantIdents e) (hu e) fun v => (c.means (c.payloadTy e v)).element).1
  · exact (described_variants (C37_description _ _ (hE e).1) (ha.variantIdents e) (hu e) fun _ => ⟨.one, .text .string⟩).2
  · exact described_nodup (C37_description _ _ (hE e).1) (ha.variantIdents e)

end SX.Whole
