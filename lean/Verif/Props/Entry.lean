import Verif.Model.Entry
import Verif.Props.Gen
import Verif.Props.MacroErrors

/-
C63: from the declaration to the expansion.
-/
namespace SX
open Spec Spec.Gen Gen

/-- What a macro reports, in order; whether and with what it returns. -/
def Spec.Gen.reports {Code : Type} : MacroRun Code → List MErr
  | .ret _ => []
  | .push e k => e :: reports k
  | .panic => []

def Spec.Gen.returns {Code : Type} : MacroRun Code → Option (Option Code)
  | .ret out => some out
  | .push _ k => returns k
  | .panic => none

theorem macro_run {Code : Type} (m : MacroRun Code) (l : List MErr) : m.run (some l) = (returns m, some (l ++ reports m)) := by
  induction m generalizing l with
  | ret out => simp [MacroRun.run, returns, reports]
  | push e k ih => simp [MacroRun.run, Errors.push, returns, reports, ih]
  | panic => simp [MacroRun.run, returns, reports]

/-- C63: whatever a macro does, if it returns then the expansion has what it returned and everything it reported; if it panics, or if the input
cannot be parsed, the call panics; the compiler is never aborted. -/
theorem C63_derive {Code : Type} (input : Option Decl) (f : Decl → MacroRun Code) :
    derive input f = match input with
      | none => .panic
      | some d => match returns (f d) with
        | none => .panic
        | some out => .done { errors := reports (f d), out := out } := by
  cases input with
  | none => rfl
  | some d =>
    unfold derive
    have h := macro_run (f d) []
    rw [List.nil_append] at h
    cases hr : returns (f d) with
    | none =>
      rw [hr] at h
      simp only [Errors.new, h, hr]
      rfl
    | some out =>
      rw [hr] at h
      simp only [Errors.new, h, hr]
      rfl

theorem reports_pushAll {Code : Type} (l : List MErr) (k : MacroRun Code) : reports (pushAll l k) = l ++ reports k := by
  induction l with
  | nil => rfl
  | cons e l ih => simp [pushAll, reports, ih]

theorem returns_pushAll {Code : Type} (l : List MErr) (k : MacroRun Code) : returns (pushAll l k) = returns k := by
  induction l with
  | nil => rfl
  | cons e l ih => simp [pushAll, returns, ih]

/-- The user's crate compiles no further if there are errors: they are `compile_error!`s. -/
def Spec.Gen.Rejected {Code : Type} (x : Expansion Code) : Prop := x.errors ≠ []

/-- The code for a described struct or enum does what the other claims about writing say; the root element has the declared name; skipped variants
are written as nothing. -/
def Spec.Gen.Writes (d : Decl) (t : Described) : ImplCode SerCode SerEnumCode → Prop
  | .strct c => ∃ s, t = .strct s ∧ RootIs d c.root ∧ ∀ self, c.ser self = Open.structSer s.attr.namespaces (s.fields.map (sField self))
  | .enm c => ∃ e, t = .enm e ∧ RootIs d c.root ∧ (((variantsOf d).map fun v => v.ident).Nodup → ∀ self (payload : Option SerVal),
      (∀ v ∈ e.variants, payload.isSome = v.payload → c.ser self v.ident payload = some (Open.enumSer e.attr.namespaces (sVariant v payload))) ∧
      ∀ v ∈ variantsOf d, Skipped v → c.ser self v.ident payload = some (Open.enumSer e.attr.namespaces .skipped))

theorem rowwise_idents {mapped : String → String → Prop} {vs : List DVariant} {l : List MVariant} (h : Rowwise (VariantIs mapped) vs l) :
    (l.map fun v => v.ident) = vs.map fun v => v.ident := by
  induction h with
  | nil => rfl
  | cons hx _ ih => simp [hx.ident, ih]

theorem described_nodup {d : Decl} {e : MEnum} (h : Describes d (.enm e)) (hn : ((variantsOf d).map fun v => v.ident).Nodup) :
    (e.variants.map fun v => v.ident).Nodup := by
  obtain ⟨vs, hvs, -, hr, -⟩ := h
  have hvo : variantsOf d = vs := by unfold variantsOf; rw [hvs]
  rw [hvo] at hn
  rw [rowwise_idents hr]
  exact hn.sublist (List.filter_sublist.map _)

/-- C63, `derive(Serialize)`: it panics exactly for reserved prefixes; otherwise the errors are the mistakes in the declaration.  If there are none,
there is code for the type as declared. -/
theorem C63_serialize (ty : String → String) (d : Decl) :
    (UsesReserved d ∧ derive (some d) (deriveSerialize ty) = .panic) ∨
    (¬ UsesReserved d ∧ ∃ x, derive (some d) (deriveSerialize ty) = .done x ∧ DeclErrors d x.errors ∧ (Rejected x ↔ ¬ DeclOk d) ∧
      (¬ Rejected x → ∃ t c, Describes d t ∧ x.out = some c ∧ Writes d t c)) := by
  rcases describe_spec d with ⟨h, h'⟩ | ⟨h, r, errs, he, h1, h2⟩
  · refine .inl ⟨h, ?_⟩
    rw [C63_derive]
    simp [deriveSerialize, h', returns]
  · refine .inr ⟨h, ?_⟩
    have hm : deriveSerialize ty d = pushAll errs (.ret (r.map fun t => match t with
        | .strct s => ImplCode.strct (serStructCode s.attr (GStruct.ofDescribed d.ident ty s))
        | .enm e => .enm (serEnumCode e.attr (GEnum.ofDescribed d.ident ty e)))) := by
      unfold deriveSerialize
      rw [he]
      rcases r with _ | ⟨_ | _⟩ <;> rfl
    refine ⟨⟨errs, r.map fun t => match t with
        | .strct s => ImplCode.strct (serStructCode s.attr (GStruct.ofDescribed d.ident ty s))
        | .enm e => .enm (serEnumCode e.attr (GEnum.ofDescribed d.ident ty e))⟩, ?_, (C56_errors d r errs he _).mpr rfl, ?_, ?_⟩
    · rw [C63_derive]
      simp only [hm, returns_pushAll, reports_pushAll, returns, reports, List.append_nil]
    · show errs ≠ [] ↔ _
      rw [Ne, h1]
    · intro hr
      have h0 := Classical.not_not.mp hr
      obtain ⟨t, rfl, ht⟩ := h2 h0
      rw [show errs = [] from h0] at he
      refine ⟨t, _, ht, rfl, ?_⟩
      cases t with
      | strct s => exact ⟨s, rfl, (C60_root d ty).1 s he, C60_struct d.ident ty s⟩
      | enm e =>
        refine ⟨e, rfl, (C60_root d ty).2 e he, fun hn self payload => ⟨fun v hv hp => ?_, fun v hv hs => ?_⟩⟩
        · exact C60_enum d.ident ty e (described_nodup ht hn) self v hv payload hp
        · obtain ⟨vs, hvs, -⟩ := id ht
          have hvo : variantsOf d = vs := by unfold variantsOf; rw [hvs]
          rw [hvo] at hn hv
          exact C60_enum_skipped d e he vs hvs hn ty self v hv hs payload

/-- The named fields of a declaration. -/
def Spec.Gen.fieldsOf (d : Decl) : List DField :=
  match d.data with
  | .named fields => fields
  | _ => []

theorem described_fields_nodup {d : Decl} {s : MStruct} (h : Describes d (.strct s)) (hn : ((fieldsOf d).map fun f => unraw f.ident).Nodup) :
    (s.fields.map fun f => unraw f.ident).Nodup := by
  obtain ⟨fields, hf, -, hr⟩ := h
  have hfo : fieldsOf d = fields := by unfold fieldsOf; rw [hf]
  rw [hfo] at hn
  have : (s.fields.map fun f => unraw f.ident) = fields.map fun f => unraw f.ident := by
    clear hf hfo hn
    generalize s.fields = l at hr
    induction hr with
    | nil => rfl
    | cons hx _ ih => simp [hx.ident, ih]
  rw [this]
  exact hn

/-- The code for a described struct or enum does what the other claims about reading say, whatever the types of its fields do. -/
def Spec.Gen.Reads (ty : String → String) (d : Decl) (t : Described) : ImplCode StructCode EnumCode → Prop
  | .strct c => ∃ s, t = .strct s ∧ (((fieldsOf d).map fun f => unraw f.ident).Nodup → ∀ {σ τ α : Type} (types : String → TypeImpl σ τ α),
      Alike id (Open.structRaw (s.fields.map (oField types ty))) ({ code := c, decl := declOf ty s, types := types } : Prg σ τ α).raw)
  | .enm c => ∃ e, t = .enm e ∧ (((variantsOf d).map fun v => v.ident).Nodup → ∀ {σ τ α : Type} (types : String → TypeImpl σ τ α),
      Alike (Gen.named e.variants) (Open.enumRaw d.ident (e.variants.map (oVariant types ty)))
        ({ code := c, payload := fun v => some (ty v), types := types } : EPrg σ τ α).raw)

/-- Exactly one field is, unmistakably, a text field. -/
def Spec.Gen.OneTextField (d : Decl) : Prop :=
  ∃ fields, d.data = .named fields ∧ (∃ f ∈ fields, FieldMode (attrItems f.attrs) .text) ∧
    fields.Pairwise fun f g => ¬ (FieldMode (attrItems f.attrs) .text ∧ FieldMode (attrItems g.attrs) .text)

theorem describe_text {d : Decl} {r : Option Described} {errs : List MErr} (h : describe d = .ok (r, errs)) :
    (∃ s, r = some (.strct s) ∧ ∃ f ∈ s.fields, f.mode = .text) ↔ OneTextField d := by
  unfold describe at h
  unfold OneTextField
  split at h
  · rename_i vs hd
    rw [hd]
    split at h
    · simp at h
    · injection h with h; injection h with h _; subst h
      simp
  · rename_i fields hd
    split at h
    · simp at h
    · rename_i s errs' he
      injection h with h; injection h with h _; subst h
      unfold elementStruct at he
      split at he
      · simp at he
      · rename_i attr errs1 ha
        obtain ⟨-, h3⟩ := elementAttr_errors ha
        obtain ⟨-, h5, h6⟩ := elementFields_errors h3 fields errs1
        simp only at he
        split at he
        · rename_i hl
          injection he with he; injection he with he _; subst he
          refine ⟨fun h => ?_, fun h => ?_⟩
          · obtain ⟨_, h, _⟩ := h
            cases h
          · obtain ⟨fs, h1, _, h2⟩ := h
            rw [hd] at h1
            injection h1 with h1
            subst h1
            exact absurd h2 (h6.mp hl)
        · rename_i hl
          injection he with he; injection he with he _; subst he
          have hp := Classical.not_not.mp fun h => hl (h6.mpr h)
          refine ⟨fun h => ?_, fun h => ?_⟩
          · obtain ⟨s, h1, f, hf, hm⟩ := h
            injection h1 with h1; injection h1 with h1; subst h1
            refine ⟨fields, hd, Classical.byContradiction fun hc => ?_, hp⟩
            have := h5.mpr fun f hf hm => hc ⟨f, hf, hm⟩
            exact List.filter_eq_nil_iff.mp this f hf (by simp [hm])
          · obtain ⟨fs, h1, ⟨f, hf, hm⟩, _⟩ := h
            rw [hd] at h1
            injection h1 with h1
            subst h1
            refine ⟨_, rfl, Classical.byContradiction fun hc => ?_⟩
            refine h5.mp (List.filter_eq_nil_iff.mpr fun g hg hh => hc ⟨g, hg, by simpa using hh⟩) f hf hm
  · rename_i hd
    rw [hd]
    split at h
    · simp at h
    · rename_i s errs' he
      injection h with h; injection h with h _; subst h
      unfold elementStruct at he
      split at he
      · simp at he
      · simp only at he
        injection he with he; injection he with he _; subst he
        simp
  · rename_i hd
    rw [hd]
    injection h with h; injection h with h _; subst h
    simp

theorem structCode_ok (ident : String) (ty : String → String) (s : MStruct) (hT : ∀ f ∈ s.fields, f.mode ≠ .text) :
    ∃ c, structCode (GStruct.ofDescribed ident ty s) = .ok c := by
  have G := Gen.new_good someTypes ident (s.fields.map (newField ty)) (by
    intro f hf
    obtain ⟨m, hm, rfl⟩ := List.mem_map.mp hf
    have := hT m hm
    unfold newField newMode
    cases h : m.mode <;> simp_all)
  obtain ⟨fin, hf⟩ := finalizeStmts_ok _ G.noText
  unfold structCode GStruct.ofDescribed
  rw [hf]
  exact ⟨_, rfl⟩

/-- C63, `derive(Deserialize)`: the same, but it also panics if there is a text field (and no second one), whatever else is wrong. -/
theorem C63_deserialize (ty : String → String) (d : Decl) :
    ((UsesReserved d ∨ OneTextField d) ∧ derive (some d) (deriveDeserialize ty) = .panic) ∨
    (¬ UsesReserved d ∧ ¬ OneTextField d ∧ ∃ x, derive (some d) (deriveDeserialize ty) = .done x ∧ DeclErrors d x.errors ∧ (Rejected x ↔ ¬ DeclOk d) ∧
      (¬ Rejected x → ∃ t c, Describes d t ∧ x.out = some c ∧ Reads ty d t c)) := by
  rcases describe_spec d with ⟨h, h'⟩ | ⟨h, r, errs, he, h1, h2⟩
  · refine .inl ⟨.inl h, ?_⟩
    rw [C63_derive]
    simp [deriveDeserialize, h', returns]
  · by_cases ht : OneTextField d
    · obtain ⟨s, rfl, hf⟩ := (describe_text he).mpr ht
      refine .inl ⟨.inr ht, ?_⟩
      rw [C63_derive]
      simp only [deriveDeserialize, he, (C59_panics_iff d.ident ty s).mpr hf, returns_pushAll, returns]
    · refine .inr ⟨h, ht, ?_⟩
      have key : ∃ out, deriveDeserialize ty d = pushAll errs (.ret out) ∧ (∀ t, r = some t → Describes d t → ∃ c, out = some c ∧ Reads ty d t c) := by
        unfold deriveDeserialize
        rw [he]
        rcases r with _ | ⟨s | e⟩
        · exact ⟨none, rfl, fun t h => by cases h⟩
        · have hT : ∀ f ∈ s.fields, f.mode ≠ .text := fun f hf hm => ht ((describe_text he).mp ⟨s, rfl, f, hf, hm⟩)
          obtain ⟨c, hc⟩ := structCode_ok d.ident ty s hT
          refine ⟨some (.strct c), by simp only [hc], fun t h hd => ?_⟩
          injection h with h
          subst h
          refine ⟨_, rfl, s, rfl, fun hn σ τ α types => ?_⟩
          obtain ⟨code, h3, h4⟩ := C58_struct types d.ident ty s hT (described_fields_nodup hd hn)
          rw [hc] at h3
          injection h3 with h3
          subst h3
          exact h4
        · refine ⟨_, rfl, fun t h hd => ?_⟩
          injection h with h
          subst h
          exact ⟨_, rfl, e, rfl, fun hn σ τ α types => C58_enum types d.ident ty e (described_nodup hd hn)⟩
      obtain ⟨out, hm, hout⟩ := key
      refine ⟨⟨errs, out⟩, ?_, (C56_errors d r errs he _).mpr rfl, ?_, ?_⟩
      · rw [C63_derive]
        simp only [hm, returns_pushAll, reports_pushAll, returns, reports, List.append_nil]
      · show errs ≠ [] ↔ _
        rw [Ne, h1]
      · intro hr
        obtain ⟨t, rfl, hd⟩ := h2 (Classical.not_not.mp hr)
        obtain ⟨c, hc, hR⟩ := hout t rfl hd
        exact ⟨t, c, hd, hc, hR⟩

/-- C63, `derive(ParseText)`: it never panics. -/
theorem C63_parseText (types : String → TextTy) (ty : String → String) (fromStr : String → Option Nat) (toString : Nat → String) (d : Decl) :
    ∃ x, derive (some d) (deriveParseText ty) = .done x ∧ TextErrors d x.errors ∧ (Rejected x ↔ ¬ TextDeclOk d) ∧
      (¬ Rejected x → ∃ t c, TextDescribes d t ∧ x.out = some c ∧ ∀ text, c.run (fun n => (types n).parse) fromStr text =
        resMap (textValue (variantsOf d) t) ((textTy types ty fromStr toString d.ident (variantsOf d) t).parse text)) := by
  refine ⟨⟨(describeText d).2, (describeText d).1.map fun t => parseCode d.ident (GText.ofDescribed ty (declVariants d) t)⟩, ?_, (C56_text d _).mpr rfl, ?_, ?_⟩
  · rw [C63_derive]
    simp only [deriveParseText, returns_pushAll, reports_pushAll, returns, reports, List.append_nil]
  · show (describeText d).2 ≠ [] ↔ _
    rw [Ne, (describeText_spec d).1]
  · intro hr
    obtain ⟨t, ht, hd⟩ := (describeText_spec d).2 (Classical.not_not.mp hr)
    refine ⟨t, _, hd, by rw [ht]; rfl, fun text => ?_⟩
    exact C60_parse types ty fromStr toString d t (Prod.ext ht (Classical.not_not.mp hr)) text

/-- C63, `derive(ToText)`: it never panics. -/
theorem C63_toText (types : String → TextTy) (ty : String → String) (fromStr : String → Option Nat) (toString : Nat → String) (d : Decl) :
    ∃ x, derive (some d) (deriveToText ty) = .done x ∧ TextErrors d x.errors ∧ (Rejected x ↔ ¬ TextDeclOk d) ∧
      (¬ Rejected x → ∃ t c, TextDescribes d t ∧ x.out = some c ∧ (((variantsOf d).map fun v => v.ident).Nodup → ∀ v text,
        (textTy types ty fromStr toString d.ident (variantsOf d) t).toText v = some text →
          c.run (fun n => (types n).toText) ty toString (textValue (variantsOf d) t v) = some text)) := by
  refine ⟨⟨(describeText d).2, (describeText d).1.map fun t => toTextCode (GText.ofDescribed ty (declVariants d) t)⟩, ?_, (C56_text d _).mpr rfl, ?_, ?_⟩
  · rw [C63_derive]
    simp only [deriveToText, returns_pushAll, reports_pushAll, returns, reports, List.append_nil]
  · show (describeText d).2 ≠ [] ↔ _
    rw [Ne, (describeText_spec d).1]
  · intro hr
    obtain ⟨t, ht, hd⟩ := (describeText_spec d).2 (Classical.not_not.mp hr)
    refine ⟨t, _, hd, by rw [ht]; rfl, fun hn v text hv => ?_⟩
    exact C60_toText types ty fromStr toString d t (Prod.ext ht (Classical.not_not.mp hr)) hn v text hv

namespace ExM

/-- Not a declaration: nothing is emitted, not even the error of `syn`; see finding 19. -/
example : derive none (deriveSerialize ExG.ty) = .panic := rfl

/-- A macro that reports twice and gives up: both errors reach the compiler. -/
example : derive (some library) (fun _ => (.push .manyText (.push .unsupported (.ret none)) : MacroRun Unit)) =
    .done { errors := [.manyText, .unsupported], out := none } := rfl

/-- A declaration in order, with a mapped prefix, an attribute, a flattened field. -/
example : ∃ x t c, derive (some library) (deriveSerialize ExG.ty) = .done x ∧ x.errors = [] ∧ Describes library t ∧ x.out = some c ∧ Writes library t c := by
  have hno : ¬ UsesReserved library := fun h => by have := (C41_panics_iff _).mpr h; cases this
  have hok : DeclOk library := (C40_accepted_iff _ hno).mpr ⟨_, library_described⟩
  rcases C63_serialize ExG.ty library with ⟨h, -⟩ | ⟨-, x, h1, -, h2, h3⟩
  · exact absurd h hno
  · have hr : ¬ Rejected x := fun h => h2.mp h hok
    obtain ⟨t, c, h4, h5, h6⟩ := h3 hr
    exact ⟨x, t, c, h1, Classical.not_not.mp hr, h4, h5, h6⟩

example : ∃ x t c, derive (some kind) (deriveDeserialize ExG.ty) = .done x ∧ x.errors = [] ∧ Describes kind t ∧ x.out = some c ∧ Reads ExG.ty kind t c := by
  have hno : ¬ UsesReserved kind := fun h => by have := (C41_panics_iff _).mpr h; cases this
  have hok : DeclOk kind := (C40_accepted_iff _ hno).mpr ⟨_, kind_described⟩
  have hnt : ¬ OneTextField kind := fun ⟨_, h, _⟩ => by cases h
  rcases C63_deserialize ExG.ty kind with ⟨h | h, -⟩ | ⟨-, -, x, h1, -, h2, h3⟩
  · exact absurd h hno
  · exact absurd h hnt
  · have hr : ¬ Rejected x := fun h => h2.mp h hok
    obtain ⟨t, c, h4, h5, h6⟩ := h3 hr
    exact ⟨x, t, c, h1, Classical.not_not.mp hr, h4, h5, h6⟩

/-- With a text field, `Serialize` accepts what `Deserialize` panics on. -/
example : OneTextField textual ∧ derive (some textual) (deriveDeserialize ExG.ty) = .panic ∧
    ∃ x, derive (some textual) (deriveSerialize ExG.ty) = .done x ∧ x.errors = [] := by
  have ho : OneTextField textual := ⟨_, rfl, ⟨_, List.mem_cons_self, .text (by decide) (by decide) (by decide)⟩, by simp⟩
  refine ⟨ho, ?_, _, rfl, rfl⟩
  rcases C63_deserialize ExG.ty textual with ⟨-, h⟩ | ⟨-, h, -⟩
  · exact h
  · exact absurd ho h

/-- Errors do not hide one another, and something is emitted all the same. -/
example : ∃ x, derive (some wrong) (deriveSerialize ExG.ty) = .done x ∧ 5 ≤ x.errors.length ∧ DeclErrors wrong x.errors := by
  rcases C63_serialize ExG.ty wrong with ⟨h, -⟩ | ⟨-, x, h1, h2, -⟩
  · have := (C41_panics_iff _).mpr h
    cases this
  · refine ⟨x, h1, ?_, h2⟩
    obtain ⟨r, errs, h3, h4⟩ : ∃ r errs, describe wrong = .ok (r, errs) ∧ 5 ≤ errs.length := ⟨_, _, rfl, by decide⟩
    rw [(C56_errors wrong r errs h3 x.errors).mp h2]
    exact h4

example : TextDeclOk size ∧ derive (some size) (deriveParseText id) = .done (.mk [] (some
      (.mk (some .collapse) (.restriction [("Small", "Small"), ("very large", "Large")] (.unknown "Other"))))) :=
  ⟨(describeText_spec size).1.mp (by rw [size_described]), rfl⟩

end ExM

end SX
