import Verif.Proof.WholeFacts
import Verif.Props.OpenSer

/-
The emitted serializers of a crate and the derived implementations for its declarations do the same.
-/
namespace SX.Whole
open SX.Open Spec Spec.Open SX.Gen Spec.Gen

theorem derived_ser {ty : String → String} {d : Decl} {out : ImplCode SerCode SerEnumCode}
    (h : derive (some d) (deriveSerialize ty) = .done { errors := [], out := some out }) :
    ∃ t, describe d = .ok (some t, []) ∧
      match t with
      | .strct s => out = .strct (serStructCode s.attr (GStruct.ofDescribed d.ident ty s))
      | .enm e => out = .enm (serEnumCode e.attr (GEnum.ofDescribed d.ident ty e)) := by
  obtain ⟨h1, h2⟩ := derived h
  unfold deriveSerialize at h1 h2
  cases hd : describe d with
  | error f => rw [hd] at h1; cases h1
  | ok x =>
    obtain ⟨r, errs⟩ := x
    rw [hd] at h1 h2
    simp only [returns_pushAll, reports_pushAll] at h1 h2
    obtain ⟨rfl, h3⟩ := List.append_eq_nil_iff.mp h2
    rcases r with _ | ⟨s | e⟩
    · simp [returns] at h1
    · refine ⟨_, rfl, ?_⟩
      simp only [returns, Option.some.injEq] at h1
      exact h1.symm
    · refine ⟨_, rfl, ?_⟩
      simp only [returns, Option.some.injEq] at h1
      exact h1.symm

theorem attrVal_eq (o : Bool) (t : TextTy) (v : Val) (name : EName) : attrVal o t v name = attrSer o t v name := by
  have key : ∀ s, attrOne (.ok s) name = attrOpt (some (.ok s)) name := by
    intro s
    unfold attrOpt attrOne
    simp only [AttrProg.andThen]
    congr 1
    funext r
    rcases r with _ | ⟨⟨⟩⟩ <;> rfl
  unfold attrVal attrSer
  cases o with
  | false =>
    cases v <;> try rfl
    rename_i tv
    cases h : t.toText tv with
    | none => simp [h, attrOpt]
    | some s => simp [h, key]
  | true =>
    cases v <;> try rfl
    rename_i x
    cases x with
    | none => rfl
    | some x =>
      cases x <;> try rfl
      rename_i tv
      cases h : t.toText tv with
      | none => simp [h, attrOpt]
      | some s => simp [h]

section
variable {c : Crate} {code : SerEmitted} {env : Env}

theorem serAll_eq (ty : Ty) (l : List Val) : c.serAll code ty l = l.map (c.ser code ty) := by
  induction l with
  | nil => unfold Crate.serAll; rfl
  | cons v l ih => unfold Crate.serAll; rw [ih]; rfl

theorem serField_eq (s : Slot) (v : Val) (h : CardOk s.card v) (hi : ∀ w ∈ valuesOf s.card v, c.ser code s.ty w = serOf env s.ty w) :
    c.serField code s v = slotSer env s v := by
  funext name
  unfold Crate.serField slotSer
  cases hc : s.card with
  | one =>
    rw [hc] at hi
    have := hi v (by simp [valuesOf])
    cases v <;> simp only [this]
  | opt =>
    rw [hc] at hi h
    cases v <;> try rfl
    rename_i x
    cases x with
    | none => rfl
    | some x => simp only [Option.map_some]; rw [hi x (by simp [valuesOf])]
  | many =>
    rw [hc] at hi h
    cases v <;> try rfl
    rename_i l
    simp only
    rw [serAll_eq]
    congr 1
    exact List.map_congr_left fun w hw => hi w (by simpa [valuesOf] using hw)

theorem serSelf_eq {decl : List (String × String)} {vs : List Val} (hn : (decl.map fun f => f.1).Nodup) {p : Nat} {f : String × String} {v : Val}
    (hf : decl[p]? = some f) (hv : vs[p]? = some v) : c.serSelf code decl vs f.1 = c.serVal code (c.means f.2) v := by
  induction decl generalizing vs p with
  | nil => simp at hf
  | cons g decl ih =>
    simp only [List.map_cons, List.nodup_cons] at hn
    cases vs with
    | nil => simp at hv
    | cons w vs =>
      unfold Crate.serSelf
      cases p with
      | zero =>
        simp only [List.getElem?_cons_zero, Option.some.injEq] at hf hv
        subst hf hv
        simp
      | succ p =>
        simp only [List.getElem?_cons_succ] at hf hv
        have : g.1 ≠ f.1 := fun he => hn.1 (List.mem_map.mpr ⟨f, List.mem_of_getElem? hf, he.symm⟩)
        rw [if_neg this]
        exact ih hn.2 hf hv

theorem serFields_eq (ty : String → FieldTypes) (self : String → SerVal) (fields : List MField) (vs : List Val) (hl : vs.length = fields.length)
    (h : ∀ (p : Nat) (f : MField) (v : Val), fields[p]? = some f → vs[p]? = some v → self f.ident = c.serVal code (ty f.ident) v ∧
      Shape (f.toField (ty f.ident)).kind v ∧
      (∀ s, (f.toField (ty f.ident)).kind = .element s → ∀ w ∈ valuesOf s.card v, c.ser code s.ty w = serOf env s.ty w) ∧
      ∀ e, (f.toField (ty f.ident)).kind = .flatten e → c.ser code (.enm e) v = serOf env (.enm e) v) :
    fields.map (sField self) = serFields env (fields.map fun f => f.toField (ty f.ident)) vs := by
  induction fields generalizing vs with
  | nil => rfl
  | cons f fields ih =>
    cases vs with
    | nil => simp at hl
    | cons v vs =>
      have ih := ih vs (by simpa using hl) (fun p g w hg hw => h (p + 1) g w (by simpa using hg) (by simpa using hw))
      obtain ⟨h1, h2, h3, h4⟩ := h 0 f v rfl rfl
      rw [List.map_cons, ih]
      unfold serFields
      simp only [List.map_cons, List.zip_cons_cons, List.cons.injEq, and_true]
      unfold sField
      congr 1
      rw [h1]
      unfold MField.toField at h2 h3 h4 ⊢
      unfold Crate.serVal
      cases hm : f.mode with
      | element =>
        simp only [hm] at h2 h3 ⊢
        rw [serField_eq _ _ h2 (h3 _ rfl)]
      | «attribute» =>
        simp only
        congr 1
        funext n
        exact attrVal_eq _ _ _ n
      | flatten =>
        simp only [hm] at h4 ⊢
        rw [h4 _ rfl]
      | text => rfl

theorem unraw_nodup {l : List String} (h : (l.map unraw).Nodup) : l.Nodup := by
  induction l with
  | nil => simp
  | cons a l ih =>
    simp only [List.map_cons, List.nodup_cons] at h ⊢
    exact ⟨fun hm => h.1 (List.mem_map.mpr ⟨a, hm, rfl⟩), ih h.2⟩

/-- A variant that is not found is skipped. -/
theorem skipped_of_find {d : Decl} {e : MEnum} (h : Describes d (.enm e)) {v : DVariant} (hv : v ∈ variantsOf d)
    (hf : e.variants.find? (fun w => w.ident == v.ident) = none) : Skipped v := by
  obtain ⟨vs, hvs, -, hr, -⟩ := h
  have hvo : variantsOf d = vs := by unfold variantsOf; rw [hvs]
  rw [hvo] at hv
  refine Classical.byContradiction fun hs => ?_
  have hm : v ∈ vs.filter fun v => decide (word "skip" ∉ attrItems v.attrs) := by
    rw [List.mem_filter]
    exact ⟨hv, by unfold Skipped at hs; simpa using hs⟩
  have : ∃ w ∈ e.variants, w.ident = v.ident := by
    clear hf hvs hvo hs hv
    generalize e.variants = l at hr
    generalize vs.filter _ = us at hr hm
    induction hr with
    | nil => simp at hm
    | cons hx _ ih =>
      rcases List.mem_cons.mp hm with rfl | hm
      · exact ⟨_, by simp, hx.ident⟩
      · obtain ⟨w, hw, hi⟩ := ih hm
        exact ⟨w, by simp [hw], hi⟩
  obtain ⟨w, hw, hi⟩ := this
  have := List.find?_eq_none.mp hf w hw
  simp [hi] at this

theorem ser_struct (ha : AcceptedSer c code) (hd : DeclaresTypes c env) (i : Nat) (vs : List Val) (len : vs.length = (env.strct i).fields.length)
    (shape : ∀ (p : Nat) (f : Field) (v : Val), (env.strct i).fields[p]? = some f → vs[p]? = some v → Shape f.kind v)
    (elems : ∀ (p : Nat) (f : Field) (s : Slot) (v w : Val), (env.strct i).fields[p]? = some f → vs[p]? = some v →
      f.kind = .element s → w ∈ valuesOf s.card v → c.ser code s.ty w = serOf env s.ty w)
    (flats : ∀ (p : Nat) (f : Field) (e : Nat) (v : Val), (env.strct i).fields[p]? = some f → vs[p]? = some v →
      f.kind = .flatten e → c.ser code (.enm e) v = serOf env (.enm e) v) :
    c.ser code (.strct i) (.strct vs) = serOf env (.strct i) (.strct vs) := by
  obtain ⟨s, h1, h2⟩ := hd.structs i
  obtain ⟨t, h3, h4⟩ := derived_ser (ha.structs i)
  rw [h1] at h3
  cases h3
  injection h4 with h4
  have hdes := C37_description _ _ h1
  have hnd : ((c.decl i).map fun f => f.1).Nodup := by
    rw [decl_eq hdes]
    unfold declOf
    rw [List.map_map]
    have := described_fields_nodup hdes (ha.fieldIdents i)
    rw [show (s.fields.map fun f => unraw f.ident) = (s.fields.map fun f => f.ident).map unraw by rw [List.map_map]; rfl] at this
    exact unraw_nodup this
  rw [← (C53_agrees env i).1 vs len]
  conv => lhs; unfold Crate.ser
  rw [h4, C60_struct]
  have hfd : (env.strct i).fields = s.fields.map fun f => f.toField (c.means (c.fieldTy i f.ident)) := by rw [h2]; rfl
  have hns : (env.strct i).namespaces = s.attr.namespaces := by rw [h2]; rfl
  rw [hns, hfd]
  congr 1
  refine serFields_eq (c := c) (code := code) (fun f => c.means (c.fieldTy i f)) _ s.fields vs ?_ ?_
  · rw [len, hfd, List.length_map]
  · intro p f v hf hv
    have hF : (env.strct i).fields[p]? = some (f.toField (c.means (c.fieldTy i f.ident))) := by
      rw [hfd, List.getElem?_map, hf]
      rfl
    refine ⟨?_, shape p _ v hF hv, fun s hs w hw => elems p _ s v w hF hv hs hw, fun e he => flats p _ e v hF hv he⟩
    have hD : (c.decl i)[p]? = some (f.ident, c.fieldTy i f.ident) := by
      rw [decl_eq hdes]
      unfold declOf
      rw [List.getElem?_map, hf]
      rfl
    exact serSelf_eq hnd hD hv

theorem ser_enum (ha : AcceptedSer c code) (hd : DeclaresTypes c env) (i j : Nat) (w : Variant) (p : Option Val)
    (hv : (env.enm i).variants[j]? = some w)
    (hp : match w.slot, p with
      | none, none => True
      | some s, some p => CardOk s.card p ∧ ∀ x ∈ valuesOf s.card p, c.ser code s.ty x = serOf env s.ty x
      | _, _ => False) :
    c.ser code (.enm i) (.enm j p) = serOf env (.enm i) (.enm j p) := by
  obtain ⟨e, h1, h2⟩ := hd.enums i
  obtain ⟨t, h3, h4⟩ := derived_ser (ha.enums i)
  rw [h1] at h3
  cases h3
  injection h4 with h4
  have hdes := C37_description _ _ h1
  have hvs : (c.enm i).data = .enm (variantsOf (c.enm i)) := by
    obtain ⟨vs, hvs, -⟩ := id hdes
    unfold variantsOf
    rw [hvs]
  have hnd := described_nodup hdes (ha.variantIdents i)
  have hev : (env.enm i).variants = (variantsOf (c.enm i)).map (e.variant fun v => (c.means (c.payloadTy i v)).element) := by rw [h2]; rfl
  have hns : (env.enm i).namespaces = e.attr.namespaces := by rw [h2]; rfl
  rw [hev, List.getElem?_map] at hv
  cases hx : (variantsOf (c.enm i))[j]? with
  | none => rw [hx] at hv; cases hv
  | some x =>
    rw [hx] at hv
    simp only [Option.map_some, Option.some.injEq] at hv
    have hxm : x ∈ variantsOf (c.enm i) := List.mem_of_getElem? hx
    have hV : (env.enm i).variants[j]? = some w := by rw [hev, List.getElem?_map, hx]; simp [hv]
    rw [← (C53_agrees env i).2 j p, hns]
    have lhs : ∀ payload : Option SerVal, (payload = p.map fun p => c.serVal code (c.means (c.payloadTy i x.ident)) p) →
        c.ser code (.enm i) (.enm j p) = ((code.enm i).ser (fun _ => noVal) x.ident payload).getD nothing := by
      rintro payload rfl
      conv => lhs; unfold Crate.ser
      simp only [declVariants_eq, hx]
      cases p <;> rfl
    unfold serVariant
    rw [hV]
    simp only
    unfold MEnum.variant at hv
    cases hf : e.variants.find? fun w => w.ident == x.ident with
    | none =>
      rw [hf] at hv
      simp only at hv
      subst hv
      have hsk := skipped_of_find hdes hxm hf
      rw [lhs _ rfl, h4, C60_enum_skipped (c.enm i) e h1 _ hvs (ha.variantIdents i) (c.payloadTy i) _ x hxm hsk]
      rfl
    | some m =>
      rw [hf] at hv
      simp only at hv
      subst hv
      have hm : m ∈ e.variants := List.mem_of_find?_eq_some hf
      have hi : m.ident = x.ident := by simpa using List.find?_some hf
      rw [lhs _ rfl, h4, ← hi]
      simp only at hp
      cases hpl : m.payload with
      | false =>
        simp only [hpl, Bool.false_eq_true, if_false] at hp ⊢
        cases p with
        | some p => exact hp.elim
        | none =>
          rw [C60_enum (c.enm i).ident (c.payloadTy i) e hnd _ m hm _ (by simp [hpl])]
          rfl
      | true =>
        simp only [hpl, if_true] at hp ⊢
        cases p with
        | none => exact hp.elim
        | some p =>
          rw [C60_enum (c.enm i).ident (c.payloadTy i) e hnd _ m hm _ (by simp [hpl])]
          have := serField_eq (c := c) (code := code) _ p hp.1 hp.2
          simp only [Option.map_some, sVariant, Option.getD_some]
          unfold Crate.serVal
          rw [hi, this]
          rfl

theorem ser_eq (ha : AcceptedSer c code) (hd : DeclaresTypes c env) {ty : Ty} {v : Val} (h : HasTy env ty v) :
    c.ser code ty v = serOf env ty v := by
  induction h with
  | text h =>
    rename_i t tv
    unfold Crate.ser serOf writeAttributes
    conv => rhs; unfold writeChildren
    cases hx : t.toText tv with
    | none => rw [hx] at h; cases h
    | some s => rfl
  | strct len shape elems flats ih1 ih2 =>
    exact ser_struct ha hd _ _ len shape ih1 ih2
  | unit hv hs => exact ser_enum ha hd _ _ _ none hv (by rw [hs]; trivial)
  | payload hv hs card items ih => exact ser_enum ha hd _ _ _ (some _) hv (by rw [hs]; exact ⟨card, ih⟩)

end

end SX.Whole
