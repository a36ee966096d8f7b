import Verif.Proof.GenWf
import Verif.Props.Macro
import Verif.Props.Open

/-
C58, C59, C60: the code that the derive macros emit.
-/
namespace SX
open Spec Gen Spec.Gen

namespace ExG

/-- The types of the fields of `ExM.library` and of the payloads of `ExM.kind`. -/
def ty : String → String
  | "books" => "Vec<Book>"
  | "lang" => "Option<String>"
  | "note" => "String"
  | "kind" => "Kind"
  | "Novel" => "Novel"
  | "Other" => "u8"
  | x => x

/-- What `derive(Deserialize)` emits for `ExM.library`. -/
def libraryCode : StructCode where
  visitorType := "LibraryVisitor"
  attributes := [{ ns := "http://www.w3.org/XML/1998/namespace", loc := "lang" }]
  elements := [{ ns := "urn:default", loc := "note" }, { ns := "urn:lib", loc := "book" }]
  defs := [("books_present", .bool), ("lang_present", .bool), ("note_present", .bool), ("kind_visitor", .visitor "Kind")]
  inits := [("books_present", .false), ("lang_present", .false), ("note_present", .false), ("kind_visitor", .newVisitor "Kind" "kind")]
  elementArms := [
    { index := 0, guard := some "note_present", body := [.update "note"] },
    { index := 0, guard := none, body := [.writeInit "note", .set "note_present"] },
    { index := 1, guard := some "books_present", body := [.update "books"] },
    { index := 1, guard := none, body := [.writeInit "books", .set "books_present"] }]
  elementFall := .delegate ["kind_visitor"]
  attributeArms := [
    { index := 0, guard := some "lang_present", body := [], tail := .duplicate },
    { index := 0, guard := none, body := [.writeInit "lang", .set "lang_present"], tail := .taken }]
  attributeFall := .delegate ["kind_visitor"]
  characters := some (.delegate ["kind_visitor"])
  finalize := [
    .writeIfNot "books_present" "books" (.missingElement "Vec<Book>" 1),
    .writeIfNot "lang_present" "lang" (.default "Option<String>"),
    .writeIfNot "note_present" "note" (.missingElement "String" 0),
    .finalize "Kind" "kind_visitor" none]

theorem library_code : structCode (GStruct.ofDescribed "Library" ty ExM.libraryIs) = .ok libraryCode := rfl

theorem library_idents : (ExM.libraryIs.fields.map fun f => unraw f.ident).Nodup := by decide

theorem library_noText : ∀ f ∈ ExM.libraryIs.fields, f.mode ≠ .text := by decide

/-- What `derive(Deserialize)` emits for `ExM.kind`. -/
def kindCode : EnumCode where
  ident := "Kind"
  visitorType := "KindVisitor"
  elements := [{ ns := "urn:lib", loc := "Poem" }, { ns := "urn:lib", loc := "novel" }]
  initialized := [{ variant := "Poem", payload := false, index := 0 }, { variant := "Novel", payload := true, index := 1 }]
  uninitialized := [{ index := 0, variant := "Poem", payload := false }, { index := 1, variant := "Novel", payload := true }]

theorem kind_code : enumCode (GEnum.ofDescribed "Kind" ty ExM.kindIs) = kindCode := rfl

end ExG

/-- C58: the code emitted for a struct without text fields is a visitor which cannot be told apart from the one that C49, C50 and C51
are about.  The fields' identifiers are distinct in the sense of Rust, for which `r#x` is `x`. -/
theorem C58_struct {σ τ α : Type} (types : String → TypeImpl σ τ α) (ident : String) (ty : String → String) (s : MStruct)
    (hT : ∀ f ∈ s.fields, f.mode ≠ .text) (hn : (s.fields.map fun f => unraw f.ident).Nodup) :
    ∃ code, structCode (GStruct.ofDescribed ident ty s) = .ok code ∧
      Alike id (Open.structRaw (s.fields.map (oField types ty))) ({ code := code, decl := declOf ty s, types := types } : Prg σ τ α).raw := by
  obtain ⟨G, hn', ho, hd⟩ := ofDescribed_struct types ident ty s hT hn
  obtain ⟨fin, hf⟩ := finalizeStmts_ok _ G.noText
  refine ⟨_, by unfold structCode; rw [hf], ?_⟩
  have := struct_alike types G hn' (by unfold structCode; rw [hf])
  rw [ho] at this
  unfold prg at this
  rw [hd] at this
  exact this

example : ∃ code, structCode (GStruct.ofDescribed "Library" ExG.ty ExM.libraryIs) = .ok code ∧ code.elementArms.length = 4 ∧
    Alike id (Open.structRaw (ExM.libraryIs.fields.map (oField someTypes ExG.ty)))
      ({ code := code, decl := declOf ExG.ty ExM.libraryIs, types := someTypes } : Prg Unit Unit Unit).raw := by
  obtain ⟨code, h1, h2⟩ := C58_struct someTypes "Library" ExG.ty ExM.libraryIs ExG.library_noText ExG.library_idents
  refine ⟨code, h1, ?_, h2⟩
  rw [ExG.library_code] at h1
  injection h1 with h1
  rw [← h1]; rfl

/-- C58: therefore it keeps the contract of the `unsafe` trait, if the visitors of flattened fields do. -/
theorem C58_struct_sound {σ τ α : Type} (types : String → TypeImpl σ τ α) (ident : String) (ty : String → String) (s : MStruct)
    (hT : ∀ f ∈ s.fields, f.mode ≠ .text) (hn : (s.fields.map fun f => unraw f.ident).Nodup)
    (hF : ∀ f ∈ s.fields, f.mode = .flatten → Open.Sound (types (ty f.ident)).raw) :
    ∃ code, structCode (GStruct.ofDescribed ident ty s) = .ok code ∧
      Open.Sound ({ code := code, decl := declOf ty s, types := types } : Prg σ τ α).raw := by
  obtain ⟨code, h1, h2⟩ := C58_struct types ident ty s hT hn
  refine ⟨code, h1, fun h => ?_⟩
  have hs := C49_struct (s.fields.map (oField types ty)) (by
    intro f hf raw hk
    obtain ⟨m, hm, rfl⟩ := List.mem_map.mp hf
    unfold oField at hk
    cases hmm : m.mode <;> simp only [hmm] at hk <;> cases hk
    exact hF m hm hmm) h
  obtain ⟨t, ht, hfin⟩ := hs
  rcases h2 h with ⟨e, he, _⟩ | ⟨t1, t', ht1, ht', same⟩
  · rw [ht] at he; cases he
  · rw [ht] at ht1
    injection ht1 with ht1
    subst ht1
    refine ⟨t', ht', fun d => ?_⟩
    obtain ⟨t2, res, hr, hout⟩ := hfin d
    have hd : d.map (retMap (ε := Empty) (id : List α → List α)) = d := by rcases d with _ | ⟨_ | _ | _⟩ <;> rfl
    have hsame := same.finalize d
    rw [hd, hr] at hsame
    generalize Open.Raw.finalize _ t' d = r' at hsame ⊢
    cases r' with
    | error e => cases hsame
    | ok x =>
      simp only [Except.map, Except.ok.injEq, Prod.mk.injEq] at hsame
      refine ⟨x.1, x.2, rfl, fun hok => ?_⟩
      obtain ⟨v, hv⟩ := hout (hsame.1 ▸ hok)
      exact ⟨v, by rw [hsame.2, hv]; rfl⟩

example : ∀ f ∈ ExM.libraryIs.fields, f.mode = .flatten → Open.Sound (someTypes (ExG.ty f.ident)).raw := by
  intro f _ _ h
  have : ∀ h : List (Open.Call Unit), Spec.Open.run (someTypes (ExG.ty f.ident)).raw h () = .ok () := by
    intro h
    induction h with
    | nil => rfl
    | cons c h ih => cases c <;> exact ih
  exact ⟨(), this h, fun _ => ⟨(), .ok (), rfl, fun _ => ⟨(), rfl⟩⟩⟩

/-- C58: the same for enums.  `named` gives values by the variants' identifiers. -/
theorem C58_enum {σ τ α : Type} (types : String → TypeImpl σ τ α) (ident : String) (ty : String → String) (e : MEnum)
    (hn : (e.variants.map fun v => v.ident).Nodup) :
    Alike (named e.variants) (Open.enumRaw ident (e.variants.map (oVariant types ty)))
      ({ code := enumCode (GEnum.ofDescribed ident ty e), payload := fun v => some (ty v), types := types } : EPrg σ τ α).raw :=
  enum_alike types ident ty e hn

/-- C58: and it keeps the contract. -/
theorem C58_enum_sound {σ τ α : Type} (types : String → TypeImpl σ τ α) (ident : String) (ty : String → String) (e : MEnum)
    (hn : (e.variants.map fun v => v.ident).Nodup) :
    Open.Sound ({ code := enumCode (GEnum.ofDescribed ident ty e), payload := fun v => some (ty v), types := types } : EPrg σ τ α).raw := by
  intro h
  obtain ⟨t, ht, hfin⟩ := C49_enum ident (e.variants.map (oVariant types ty)) h
  rcases C58_enum types ident ty e hn h with ⟨_, he, _⟩ | ⟨t1, t', ht1, ht', same⟩
  · rw [ht] at he; cases he
  · rw [ht] at ht1
    injection ht1 with ht1
    subst ht1
    refine ⟨t', ht', fun d => ?_⟩
    show ∃ t2 res, EPrg.finalize _ t' d = .ok (t2, res) ∧ (res = .ok () → ∃ v, t2.cell = some v)
    have hsome := same.finalize (some (.ok (0, none)))
    obtain ⟨t2, res, hr, hout⟩ := hfin (some (.ok (0, none)))
    rw [hr] at hsome
    replace hsome : (EPrg.finalize (eprg types ident ty e) t' (some (.ok (named e.variants (0, none))))).map (fun x => (x.2, x.1.cell)) =
      .ok (res, ((Open.enumRaw ident (e.variants.map (oVariant types ty))).out t2).map (named e.variants)) := hsome
    unfold EPrg.finalize at hsome ⊢
    by_cases hi : t'.initialized = true
    · simp only [hi, if_true] at hsome ⊢
      simp only [Except.map, Except.ok.injEq, Prod.mk.injEq] at hsome
      obtain ⟨v, hv⟩ := hout hsome.1.symm
      exact ⟨t', .ok (), rfl, fun _ => ⟨_, by rw [hsome.2, hv]; rfl⟩⟩
    · simp only [hi, Bool.false_eq_true, if_false] at hsome ⊢
      cases hc : t'.cell with
      | some x => simp [hc, Open.write, Except.map] at hsome
      | none =>
        rcases d with _ | ⟨d | d | _⟩
        · exact ⟨_, _, rfl, nofun⟩
        · exact ⟨_, _, rfl, fun _ => ⟨d, rfl⟩⟩
        · exact d.elim
        · exact ⟨_, _, rfl, nofun⟩

example : (ExM.kindIs.variants.map fun v => v.ident).Nodup ∧ (enumCode (GEnum.ofDescribed "Kind" ExG.ty ExM.kindIs)).initialized.length = 2 :=
  ⟨by decide, by rw [ExG.kind_code]; rfl⟩

/-- C59: the code emitted for a struct keeps to the rules of Rust that its parts could break. -/
theorem C59_struct (ident : String) (ty : String → String) (s : MStruct) (hT : ∀ f ∈ s.fields, f.mode ≠ .text)
    (hn : (s.fields.map fun f => unraw f.ident).Nodup) :
    ∃ code, structCode (GStruct.ofDescribed ident ty s) = .ok code ∧ Compiles (declOf ty s) code :=
  struct_compiles ident ty s hT hn

example : Compiles (declOf ExG.ty ExM.libraryIs) ExG.libraryCode := by
  obtain ⟨code, h1, h2⟩ := C59_struct "Library" ExG.ty ExM.libraryIs ExG.library_noText ExG.library_idents
  rw [ExG.library_code] at h1
  injection h1 with h1
  rw [h1]; exact h2

theorem word_unraw {start more : Char → Bool} (hm : Sensible more) {s : String} (h : Identifier start more s) :
    Word start more (unraw s) := by
  unfold unraw
  rcases h with ⟨c, l, h1, h2, h3⟩ | ⟨t, rfl, h⟩
  · split
    · rename_i l' h4
      rw [h4] at h1
      cases h1
      have := h3 '#' (by simp)
      rw [hm.1] at this
      cases this
    · exact ⟨c, l, h1, h2, h3⟩
  · have : ("r#" ++ t).toList = 'r' :: '#' :: t.toList := by rw [String.toList_append]; rfl
    rw [this]
    simpa using h

theorem word_append {start more : Char → Bool} {s t : String} (h : Word start more s) (ht : ∀ c ∈ t.toList, more c = true) :
    Word start more (s ++ t) := by
  obtain ⟨c, l, h1, h2, h3⟩ := h
  refine ⟨c, l ++ t.toList, by rw [String.toList_append, h1]; rfl, h2, fun x hx => ?_⟩
  rcases List.mem_append.mp hx with hx | hx
  · exact h3 x hx
  · exact ht x hx

theorem setPositions_ident (mode : Nat → GMode) (ps : List Nat) (i : Nat) (fields : List GField) :
    (setPositions mode ps i fields).map (fun f => f.ident) = fields.map fun f => f.ident := by
  induction ps generalizing i fields with
  | nil => rfl
  | cons p ps ih =>
    show (setPositions mode ps (i + 1) _).map _ = _
    rw [ih]
    apply List.ext_getElem?
    intro k
    simp only [List.getElem?_map, List.getElem?_modify]
    cases fields[k]? with
    | none => rfl
    | some f => by_cases h : p = k <;> simp [h]

/-- C59: the names made up for the visitor are identifiers, and not raw ones, also if those of the declaration are raw. -/
theorem C59_identifiers (start more : Char → Bool) (hm : Sensible more) (ident : String) (ty : String → String) (s : MStruct)
    (hi : Identifier start more ident) (hf : ∀ f ∈ s.fields, Identifier start more f.ident) (code : StructCode)
    (hc : structCode (GStruct.ofDescribed ident ty s) = .ok code) :
    Word start more code.visitorType ∧ ∀ x ∈ code.defs, Word start more x.1 := by
  have suffix : ∀ t : String, (∀ c ∈ t.toList, c ∈ "_presentvioV".toList) → ∀ c ∈ t.toList, more c = true := fun t ht c h => hm.2 c (ht c h)
  have hid : ∀ f ∈ (GStruct.ofDescribed ident ty s).fields, Identifier start more f.ident := by
    intro f h
    have h' : f.ident ∈ (GStruct.ofDescribed ident ty s).fields.map fun f => f.ident := List.mem_map_of_mem h
    unfold GStruct.ofDescribed GStruct.new at h'
    simp only [setPositions_ident, List.map_map] at h'
    obtain ⟨m, hm', e⟩ := List.mem_map.mp h'
    rw [← e]
    exact hf m hm'
  unfold structCode at hc
  split at hc
  · cases hc
  · cases hc
    refine ⟨word_append (word_unraw hm hi) (suffix _ (by decide)), fun x hx => ?_⟩
    unfold visitorFieldDefinitions at hx
    obtain ⟨f, hf, h⟩ := List.mem_filterMap.mp hx
    have hw := word_unraw hm (hid f hf)
    split at h <;> cases h <;> exact word_append hw (suffix _ (by decide))

/-- Identifiers of ASCII letters, and a struct with a field `r#type`. -/
example : Sensible (fun c => c.isAlphanum || c == '_') ∧ Identifier Char.isAlpha (fun c => c.isAlphanum || c == '_') "r#type" ∧
    ∃ code, structCode (GStruct.ofDescribed "r#struct" (fun _ => "T") (MStruct.mk ExM.libraryIs.attr
      [MField.mk "r#type" .flatten false (MName.mk "type" none none)])) = .ok code ∧ code.visitorType = "structVisitor" ∧
      code.defs = [("type_visitor", .visitor "T")] :=
  ⟨⟨by decide, by decide⟩, .inr ⟨"type", by decide, 't', ['y', 'p', 'e'], by decide⟩, _, rfl, rfl, rfl⟩

/-- C59: emitting it panics exactly if there is a text field. -/
theorem C59_panics_iff (ident : String) (ty : String → String) (s : MStruct) :
    structCode (GStruct.ofDescribed ident ty s) = .error .panic ↔ ∃ f ∈ s.fields, f.mode = .text := by
  constructor
  · intro h
    apply Classical.byContradiction
    intro hc
    have hT : ∀ f ∈ s.fields, f.mode ≠ .text := fun f hf hm => hc ⟨f, hf, hm⟩
    have G := Gen.new_good someTypes ident (s.fields.map (newField ty)) (by
      intro f hf
      obtain ⟨m, hm, rfl⟩ := List.mem_map.mp hf
      have := hT m hm
      unfold newField newMode
      cases h : m.mode <;> simp_all)
    obtain ⟨fin, hf⟩ := finalizeStmts_ok _ G.noText
    unfold structCode GStruct.ofDescribed at h
    rw [hf] at h
    cases h
  · exact struct_panics ident ty s

/-- C59: the `match` of the `Deserialize` macro on the value of an enum is exhaustive exactly if no variant is skipped. -/
theorem C59_enum_exhaustive_iff (d : Decl) (e : MEnum) (h : describe d = .ok (some (.enm e), [])) (vs : List DVariant) (hvs : d.data = .enm vs)
    (hn : (vs.map fun v => v.ident).Nodup) (ty : String → String) :
    Exhaustive vs ((enumCode (GEnum.ofDescribed d.ident ty e)).initialized.map fun a => (a.variant, a.payload)) ↔ ∀ v ∈ vs, ¬ Skipped v := by
  refine exhaustive_iff d e vs hvs (C37_description d _ h) hn _ ?_
  unfold enumCode
  rw [initArms_variants]
  exact variants_perm d.ident ty e

/-- A declaration with a skipped variant: documented (`lib.rs:314`), but the emitted `match` lacks it. -/
example : ¬ Exhaustive [⟨"Novel", ExM.attrs [kv "prefix" "l", kv "rename" "novel"], .unnamed 1⟩,
      ⟨"Other", ExM.attrs [word "skip", word "nonsense"], .unnamed 2⟩, ⟨"Poem", ExM.attrs [kv "prefix" "l"], .unit⟩]
    (ExG.kindCode.initialized.map fun a => (a.variant, a.payload)) := by
  have h := C59_enum_exhaustive_iff ExM.kind ExM.kindIs ExM.kind_described _ rfl (by decide) ExG.ty
  rw [show enumCode (GEnum.ofDescribed ExM.kind.ident ExG.ty ExM.kindIs) = ExG.kindCode from ExG.kind_code] at h
  intro hx
  exact h.mp hx _ (List.mem_cons_of_mem _ List.mem_cons_self) (by unfold Skipped; decide)

/-- C59: its indices are those of the table, so `ELEMENTS[expected_i]` does not panic; and what is constructed has the form of the variants. -/
theorem C59_enum_indices (d : Decl) (e : MEnum) (h : describe d = .ok (some (.enm e), [])) (vs : List DVariant) (hvs : d.data = .enm vs)
    (hn : (vs.map fun v => v.ident).Nodup) (ty : String → String) :
    let code := enumCode (GEnum.ofDescribed d.ident ty e)
    code.initialized.map (fun a => a.index) = List.range code.elements.length ∧
    code.uninitialized.map (fun a => a.index) = List.range code.elements.length ∧
    ∀ a ∈ code.uninitialized, ∃ v ∈ vs, v.ident = a.variant ∧ v.fields = if a.payload then .unnamed 1 else .unit := by
  have hp := variants_perm d.ident ty e
  rw [← uninitArms_variants _ 0] at hp
  obtain ⟨_, h2, h3⟩ := arms_cover d e vs hvs (C37_description d _ h) hn _ hp
  refine ⟨?_, ?_, ?_⟩
  · simp [enumCode, initArms_indices]
  · simp [enumCode, uninitArms_indices]
  · intro a ha
    have hm := List.mem_map_of_mem (f := fun a : UninitArm => (a.variant, a.payload)) ha
    obtain ⟨v, hv, hi⟩ := h3 _ hm
    exact ⟨v, hv, hi, h2 v hv a.payload (by rw [hi]; exact hm)⟩

example := C59_enum_indices ExM.kind ExM.kindIs ExM.kind_described _ rfl (by decide) ExG.ty

/-- C59: the `match` of the `Serialize` macro is always exhaustive; it has a wildcard arm exactly if a variant is skipped. -/
theorem C59_serialize_exhaustive (d : Decl) (e : MEnum) (h : describe d = .ok (some (.enm e), [])) (vs : List DVariant) (hvs : d.data = .enm vs)
    (hn : (vs.map fun v => v.ident).Nodup) (ty : String → String) :
    let code := serEnumCode e.attr (GEnum.ofDescribed d.ident ty e)
    (code.wildcard = true ↔ ∃ v ∈ vs, Skipped v) ∧
    (code.wildcard = true ∨ Exhaustive vs (code.arms.map fun a => (a.variant, a.payload))) := by
  have hd := C37_description d _ h
  have hw : e.hasSkipped = true ↔ ∃ v ∈ vs, Skipped v := by
    obtain ⟨vs', hvs', _, _, hs⟩ := hd
    rw [hvs] at hvs'
    injection hvs' with hvs'
    rw [hvs']; exact hs
  refine ⟨hw, ?_⟩
  by_cases hs : e.hasSkipped = true
  · exact .inl hs
  · refine .inr ((exhaustive_iff d e vs hvs hd hn _ ?_).mpr fun v hv hv' => hs (hw.mpr ⟨v, hv, hv'⟩))
    have := variants_perm d.ident ty e
    unfold serEnumCode
    simpa [List.map_map, Function.comp_def] using this

/-- C60: the code emitted by `derive(Serialize)` for a struct writes what C53 and C54 are about. -/
theorem C60_struct (ident : String) (ty : String → String) (s : MStruct) (self : String → SerVal) :
    (serStructCode s.attr (GStruct.ofDescribed ident ty s)).ser self = Open.structSer s.attr.namespaces (s.fields.map (sField self)) :=
  struct_ser ident ty s self

/-- Attributes first, in the order of the fields, then what flattened fields write. -/
example : serStructCode ExM.libraryIs.attr (GStruct.ofDescribed "Library" ExG.ty ExM.libraryIs) =
    { attributes := [.namespace "" "urn:default", .namespace "l" "urn:lib", .write "lang" { ns := xmlNs, loc := "lang" }, .flatten "kind"]
      children := [.write "books" { ns := "urn:lib", loc := "book" }, .write "note" { ns := "urn:default", loc := "note" }, .flatten "kind"]
      root := { ns := "urn:lib", loc := "Library" } } := rfl

/-- C60: the same for enums, whether the value is of a variant that is written … -/
theorem C60_enum (ident : String) (ty : String → String) (e : MEnum) (hn : (e.variants.map fun v => v.ident).Nodup)
    (self : String → SerVal) (v : MVariant) (hv : v ∈ e.variants) (payload : Option SerVal) (hp : payload.isSome = v.payload) :
    (serEnumCode e.attr (GEnum.ofDescribed ident ty e)).ser self v.ident payload = some (Open.enumSer e.attr.namespaces (sVariant v payload)) :=
  enum_ser ident ty e hn self v hv payload hp

example : (⟨"Novel", { loc := "novel", pfx := some "l", ns := some "urn:lib" }, true⟩ : MVariant) ∈ ExM.kindIs.variants := by
  simp [ExM.kindIs]

/-- … or of a skipped one. -/
theorem C60_enum_skipped (d : Decl) (e : MEnum) (h : describe d = .ok (some (.enm e), [])) (vs : List DVariant) (hvs : d.data = .enm vs)
    (hn : (vs.map fun v => v.ident).Nodup) (ty : String → String) (self : String → SerVal) (v : DVariant) (hv : v ∈ vs) (hs : Skipped v)
    (payload : Option SerVal) :
    (serEnumCode e.attr (GEnum.ofDescribed d.ident ty e)).ser self v.ident payload = some (Open.enumSer e.attr.namespaces .skipped) := by
  have hd := C37_description d _ h
  have hc := (arms_cover d e vs hvs hd hn _ (List.Perm.refl _)).1 v hv
  rw [enum_ser_skipped]
  · obtain ⟨vs', hvs', _, _, hk⟩ := hd
    rw [hvs] at hvs'
    injection hvs' with hvs'
    rw [if_pos (hk.mpr ⟨v, hvs' ▸ hv, hs⟩)]
  · intro w hw he
    exact hc.mp ⟨w.payload, List.mem_map.mpr ⟨w, hw, by rw [he]⟩⟩ hs

example : Skipped ⟨"Other", ExM.attrs [word "skip", word "nonsense"], .unnamed 2⟩ := by unfold Skipped; decide

/-- The name the emitted `SerializeRoot::root` gives is the one declared: local name and namespace of the type. -/
def Spec.Gen.RootIs (d : Decl) (root : EName) : Prop :=
  LocalName d.ident (attrItems d.attrs) root.loc ∧ ∃ ns, NameNs (Mapped (attrItems d.attrs)) (attrItems d.attrs) ns ∧ root.ns = ns.getD ""

/-- C60: values are written as elements with the declared name. -/
theorem C60_root (d : Decl) (ty : String → String) :
    (∀ s, describe d = .ok (some (.strct s), []) → Spec.Gen.RootIs d (serStructCode s.attr (GStruct.ofDescribed d.ident ty s)).root) ∧
    ∀ e, describe d = .ok (some (.enm e), []) → Spec.Gen.RootIs d (serEnumCode e.attr (GEnum.ofDescribed d.ident ty e)).root := by
  constructor
  · intro s h
    obtain ⟨_, _, ha, _⟩ := C37_description d _ h
    exact ⟨ha.loc, _, ha.ns, rfl⟩
  · intro e h
    obtain ⟨_, _, ha, _⟩ := C37_description d _ h
    exact ⟨ha.loc, _, ha.ns, rfl⟩

example : Spec.Gen.RootIs ExM.library { ns := "urn:lib", loc := "Library" } := (C60_root ExM.library ExG.ty).1 _ ExM.library_described

/-- C60: the code emitted by `derive(ParseText)` parses as C06, C42 and the other claims about text types say. -/
theorem C60_parse (types : String → TextTy) (ty : String → String) (fromStr : String → Option Nat) (toString : Nat → String) (d : Decl)
    (t : TextDescribed) (h : describeText d = (some t, [])) (text : String) :
    (parseCode d.ident (GText.ofDescribed ty (variantsOf d) t)).run (fun n => (types n).parse) fromStr text =
      resMap (textValue (variantsOf d) t) ((textTy types ty fromStr toString d.ident (variantsOf d) t).parse text) :=
  text_parse types ty fromStr toString d t (C42_text_description d t h) text

/-- The white space is collapsed, and the text of the second variant is not its identifier. -/
example : parseCode "Size" (GText.ofDescribed id (variantsOf ExM.size) (.restriction .collapse [some "Small", some "very large", none])) =
    { normalize := some .collapse, body := .restriction [("Small", "Small"), ("very large", "Large")] (.unknown "Other") } := rfl

/-- C60: the code emitted by `derive(ToText)` gives every value the text that the other claims are about. -/
theorem C60_toText (types : String → TextTy) (ty : String → String) (fromStr : String → Option Nat) (toString : Nat → String) (d : Decl)
    (t : TextDescribed) (h : describeText d = (some t, [])) (hn : ((variantsOf d).map fun v => v.ident).Nodup) (v : TVal) (text : String)
    (hv : (textTy types ty fromStr toString d.ident (variantsOf d) t).toText v = some text) :
    (toTextCode (GText.ofDescribed ty (variantsOf d) t)).run (fun n => (types n).toText) ty toString (textValue (variantsOf d) t v) = some text :=
  text_toText types ty fromStr toString d t (C42_text_description d t h) hn v text hv

example : describeText ExM.size = (some (.restriction .collapse [some "Small", some "very large", none]), []) ∧
    ((variantsOf ExM.size).map fun v => v.ident).Nodup ∧
    (textTy (fun _ => .string) id (fun _ => none) toString ExM.size.ident (variantsOf ExM.size)
      (.restriction .collapse [some "Small", some "very large", none])).toText (.known 1) = some "very large" :=
  ⟨ExM.size_described, by decide, rfl⟩

end SX
