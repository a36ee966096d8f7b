import Verif.Proof.MacroText
import Verif.Props.DeriveSer
import Verif.Props.Text

/-
C37, C40, C41, C42: the front end of the derive macros.
-/
namespace SX
open Spec

namespace ExM

def attrs (items : List NMeta) : List Attr := [.foreign, .list items]

/-- ```
/// A library.
#[static_xml(prefix = "l", namespace = "l:  urn:lib ", namespace = "xml: http://www.w3.org/XML/1998/namespace")]
#[static_xml(default_namespace = "urn:default")]
struct Library {
    #[static_xml(rename = "book", prefix = "l")] books: Vec<Book>,
    #[static_xml(attribute, prefix = "xml", default)] lang: Option<String>,
    #[static_xml(prefix = " ")] note: String,
    #[static_xml(flatten)] kind: Kind,
}
``` -/
def library : Decl where
  ident := "Library"
  attrs := [.foreign, .list [kv "prefix" "l", kv "namespace" "l:  urn:lib ", kv "namespace" "xml: http://www.w3.org/XML/1998/namespace"],
    .list [kv "default_namespace" "urn:default"]]
  data := .named [
    { ident := "books", attrs := attrs [kv "rename" "book", kv "prefix" "l"] },
    { ident := "lang", attrs := attrs [word "attribute", kv "prefix" "xml", word "default"] },
    { ident := "note", attrs := attrs [kv "prefix" " "] },
    { ident := "kind", attrs := attrs [word "flatten"] }]

def libraryIs : MStruct where
  attr := { name := { loc := "Library", pfx := some "l", ns := some "urn:lib" }, namespaces := [("", "urn:default"), ("l", "urn:lib")] }
  fields := [
    { ident := "books", mode := .element, default := false, name := { loc := "book", pfx := some "l", ns := some "urn:lib" } },
    { ident := "lang", mode := .attribute, default := true, name := { loc := "lang", pfx := some "xml", ns := some xmlNs } },
    { ident := "note", mode := .element, default := false, name := { loc := "note", pfx := some "", ns := some "urn:default" } },
    { ident := "kind", mode := .flatten, default := false, name := { loc := "kind", pfx := none, ns := none } }]

theorem library_described : describe library = .ok (some (.strct libraryIs), []) := rfl

/-- ```
#[static_xml(namespace = "l: urn:lib")]
enum Kind { #[static_xml(prefix = "l", rename = "novel")] Novel(Novel), #[static_xml(skip, nonsense)] Other(u8, u8), #[static_xml(prefix = "l")] Poem }
``` -/
def kind : Decl where
  ident := "Kind"
  attrs := attrs [kv "namespace" "l: urn:lib"]
  data := .enm [
    { ident := "Novel", attrs := attrs [kv "prefix" "l", kv "rename" "novel"], fields := .unnamed 1 },
    { ident := "Other", attrs := attrs [word "skip", word "nonsense"], fields := .unnamed 2 },
    { ident := "Poem", attrs := attrs [kv "prefix" "l"], fields := .unit }]

def kindIs : MEnum where
  attr := { name := { loc := "Kind", pfx := none, ns := none }, namespaces := [("l", "urn:lib")] }
  variants := [
    { ident := "Novel", name := { loc := "novel", pfx := some "l", ns := some "urn:lib" }, payload := true },
    { ident := "Poem", name := { loc := "Poem", pfx := some "l", ns := some "urn:lib" }, payload := false }]
  hasSkipped := true

theorem kind_described : describe kind = .ok (some (.enm kindIs), []) := rfl

end ExM

/-- C37: if the macro reports no error, then what it generates code from says what the declaration says: local names, the
namespaces of prefixes, the declared mappings, modes.  -/
theorem C37_description (d : Decl) (t : Described) (h : describe d = .ok (some t, [])) : Describes d t := by
  rcases describe_spec d with ⟨_, h'⟩ | ⟨_, r, errs, h', _, h2⟩
  · rw [h'] at h; cases h
  · rw [h'] at h
    injection h with h
    injection h with h3 h4
    obtain ⟨t', ht, hd⟩ := h2 h4
    rw [h3] at ht
    injection ht with ht
    rw [ht]; exact hd

example : Describes ExM.library (.strct ExM.libraryIs) ∧ Describes ExM.kind (.enm ExM.kindIs) :=
  ⟨C37_description _ _ ExM.library_described, C37_description _ _ ExM.kind_described⟩

/-- The namespace of a name: none, the built-in one, or a declared one. -/
def NsFrom (m : SMap String) (ns : Option String) : Prop := ns = none ∨ ns = some xmlNs ∨ ∃ p u, (p, u) ∈ m ∧ ns = some u

theorem nsFrom_of {m : SMap String} {mapped : String → String → Prop} (hm : ∀ p u, (p, u) ∈ m ↔ mapped p u) {items : List NMeta}
    {ns : Option String} (h : NameNs mapped items ns) : NsFrom m ns := by
  rcases h with ⟨_, h⟩ | ⟨s, p, _, _, h⟩
  · exact .inl h
  · rcases h with ⟨u, hu, h⟩ | ⟨_, ⟨_, h⟩ | ⟨_, h⟩⟩
    · exact .inr (.inr ⟨p, u, (hm p u).mpr hu, h⟩)
    · exact .inr (.inl h)
    · exact .inl h

theorem Spec.Rowwise.of_mem {α β : Type} {R : α → β → Prop} {l : List α} {m : List β} (h : Rowwise R l m) {b : β} (hb : b ∈ m) :
    ∃ a ∈ l, R a b := by
  induction h with
  | nil => simp at hb
  | cons h t ih =>
    rcases List.mem_cons.mp hb with rfl | hb
    · exact ⟨_, by simp, h⟩
    · obtain ⟨a, ha, hr⟩ := ih hb
      exact ⟨a, by simp [ha], hr⟩

theorem exists_cons_iff {α : Type} {p : α → Prop} {a : α} {l : List α} : (∃ x, x ∈ a :: l ∧ p x) ↔ p a ∨ ∃ x, x ∈ l ∧ p x := by
  simp [or_and_right, exists_or]

/-- C37: every name generated has no namespace, the namespace `xml`, or one whose mapping the generated serializer declares. -/
theorem C37_declared (d : Decl) :
    (∀ s, describe d = .ok (some (.strct s), []) → NsFrom s.attr.namespaces s.attr.name.ns ∧ ∀ f ∈ s.fields, NsFrom s.attr.namespaces f.name.ns) ∧
    (∀ e, describe d = .ok (some (.enm e), []) → NsFrom e.attr.namespaces e.attr.name.ns ∧ ∀ v ∈ e.variants, NsFrom e.attr.namespaces v.name.ns) := by
  constructor
  · intro s h
    obtain ⟨fields, _, ha, hr⟩ := C37_description d _ h
    refine ⟨nsFrom_of ha.mappings ha.ns, fun f hf => ?_⟩
    obtain ⟨g, _, hg⟩ := hr.of_mem hf
    exact nsFrom_of ha.mappings hg.ns
  · intro e h
    obtain ⟨vs, _, ha, hr, _⟩ := C37_description d _ h
    refine ⟨nsFrom_of ha.mappings ha.ns, fun v hv => ?_⟩
    obtain ⟨g, _, hg⟩ := hr.of_mem hv
    exact nsFrom_of ha.mappings hg.ns

/-! ### From declarations to documents -/

/-- All types come from declarations without errors. -/
structure Generated (env : Env) : Prop where
  structs : ∀ i, ∃ d s ty, describe d = .ok (some (.strct s), []) ∧ env.strct i = s.toDef ty
  enums : ∀ i, ∃ d e vs ty, describe d = .ok (some (.enm e), []) ∧ d.data = .enm vs ∧ env.enm i = e.toDef d.ident vs ty

/-- Names of elements have a namespace, i.e. a prefix (possibly the empty one, if a default namespace is declared). -/
structure AllPrefixed (env : Env) : Prop where
  fields : ∀ i (f : Field) s, f ∈ (env.strct i).fields → f.kind = .element s → f.name.ns ≠ none
  variants : ∀ i (w : Variant), w ∈ (env.enm i).variants → w.skip = false → w.name.ns ≠ none

theorem elemNsOk_of {m : SMap String} {n : DName} (h : NsFrom m n.ns) : ElemNsOk (urls m) n.expanded := by
  unfold ElemNsOk DName.expanded
  rcases h with h | h | ⟨p, u, hm, h⟩
  · rw [h]; exact .inr (.inr rfl)
  · rw [h]; exact .inl rfl
  · rw [h]
    exact .inr (.inl (List.mem_map.mpr ⟨(p, u), hm, rfl⟩))

/-- C37: types from declarations without errors satisfy the condition under which serialization was proved not to panic and to
write the declared document (C31, C32): every name's namespace is declared.  What remains are conditions on the mappings. -/
theorem C37_names_declared (env : Env) (hg : Generated env) (hm : ∀ ty, ∀ x ∈ declaredNs env ty, MayDeclare x.1 x.2) :
    NamesDeclared env where
  mappings := hm
  elems i f s hf hk := by
    obtain ⟨d, r, ty, h, he⟩ := hg.structs i
    rw [he] at hf ⊢
    obtain ⟨g, hg', rfl⟩ := List.mem_map.mp hf
    exact elemNsOk_of (((C37_declared d).1 r h).2 g hg')
  attrs i f o t hf hk := by
    obtain ⟨d, r, ty, h, he⟩ := hg.structs i
    rw [he] at hf ⊢
    obtain ⟨g, hg', rfl⟩ := List.mem_map.mp hf
    rcases ((C37_declared d).1 r h).2 g hg' with hns | hns | ⟨p, u, hmm, hns⟩
    · left
      simp [MField.toField, MName.declared, DName.expanded, hns]
    · right; left
      simp [MField.toField, MName.declared, DName.expanded, hns]
    · right; right
      simp only [MField.toField, MName.declared, DName.expanded, hns, Option.getD_some]
      exact List.mem_map.mpr ⟨(p, u), hmm, rfl⟩
  variants i w hw hs := by
    obtain ⟨d, r, vs, ty, h, hd, he⟩ := hg.enums i
    rw [he] at hw ⊢
    obtain ⟨v, hv, rfl⟩ := List.mem_map.mp hw
    revert hs
    unfold MEnum.variant
    split
    · rename_i x hx
      intro _
      exact elemNsOk_of (((C37_declared d).2 r h).2 x (List.mem_of_find?_eq_some hx))
    · simp

theorem C37_root_declared (env : Env) (hg : Generated env) (ty : Ty) (name : EName) (hr : rootName env ty = some name) :
    ElemNsOk (urls (declaredNs env ty)) name := by
  cases ty with
  | text t => simp [rootName] at hr
  | strct i =>
    simp only [rootName, Option.some.injEq] at hr
    subst hr
    obtain ⟨d, r, ty, h, he⟩ := hg.structs i
    simp only [declaredNs]
    rw [he]
    exact elemNsOk_of ((C37_declared d).1 r h).1
  | enm i =>
    simp only [rootName, Option.some.injEq] at hr
    subst hr
    obtain ⟨d, r, vs, ty, h, hd, he⟩ := hg.enums i
    simp only [declaredNs]
    rw [he]
    exact elemNsOk_of ((C37_declared d).2 r h).1

theorem named_of {m : SMap String} {n : DName} (hm : ∀ x ∈ m, x.2 ≠ "") (h : NsFrom m n.ns) (hn : n.ns ≠ none) : n.expanded.ns ≠ "" := by
  unfold DName.expanded
  rcases h with h | h | ⟨p, u, hu, h⟩
  · exact absurd h hn
  · rw [h]; exact (by decide : xmlNs ≠ "")
  · rw [h]; exact hm (p, u) hu

/-- Having a prefix is having a namespace, as no prefix is mapped to the empty URL. -/
theorem allNamed_of (env : Env) (hg : Generated env) (hm : ∀ ty, ∀ x ∈ declaredNs env ty, MayDeclare x.1 x.2) (hp : AllPrefixed env) :
    AllNamed env where
  fields i f s hf hk := by
    have hn := hp.fields i f s hf hk
    have hm := hm (.strct i)
    obtain ⟨d, r, ty, h, he⟩ := hg.structs i
    simp only [declaredNs] at hm
    rw [he] at hf hm
    obtain ⟨g, hg', rfl⟩ := List.mem_map.mp hf
    exact named_of (fun x hx => (hm x hx).2.1) (((C37_declared d).1 r h).2 g hg') hn
  variants i w hw hs := by
    have hn := hp.variants i w hw hs
    have hm := hm (.enm i)
    obtain ⟨d, r, vs, ty, h, hd, he⟩ := hg.enums i
    simp only [declaredNs] at hm
    rw [he] at hw hm
    obtain ⟨v, hv, rfl⟩ := List.mem_map.mp hw
    revert hs hn
    unfold MEnum.variant
    split
    · rename_i x hx
      intro _ hn
      exact named_of (fun x hx => (hm x hx).2.1) (((C37_declared d).2 r h).2 x (List.mem_of_find?_eq_some hx)) hn
    · simp

/-- C37, C31: writing a value of a type from declarations without errors, as a root element, never panics, whatever the
sink and the build mode; provided no declared mapping is for a prefix starting with `xml`, or has an empty URL, or the URL of the
built-in namespace, and the value has no elements in no namespace within elements that declare a default namespace. -/
theorem C37_serialize_total (dbg : Bool) (sink : Sink) (env : Env) (hg : Generated env)
    (hm : ∀ ty, ∀ x ∈ declaredNs env ty, MayDeclare x.1 x.2) (ty : Ty) (name : EName)
    (hr : rootName env ty = some name) (v : Val) (hv : HasTy env ty v) (hpf : RootPlainFree env name ty v) :
    ∃ s r, serializeVal dbg sink env name ty v = .ok (s, r) :=
  C31_never_panics_partial dbg sink env (C37_names_declared env hg hm) name ty (C37_root_declared env hg ty name hr) v hv hpf

/-- The last condition holds for every value, if there are no default namespaces or all names of elements have prefixes. -/
theorem C37_serialize_total_types (dbg : Bool) (sink : Sink) (env : Env) (hg : Generated env)
    (hm : ∀ ty, ∀ x ∈ declaredNs env ty, MayDeclare x.1 x.2) (ty : Ty) (name : EName)
    (hr : rootName env ty = some name) (hp : (∀ ty, asksDefault env ty = false) ∨ (AllPrefixed env ∧ name.ns ≠ ""))
    (v : Val) (hv : HasTy env ty v) : ∃ s r, serializeVal dbg sink env name ty v = .ok (s, r) :=
  C37_serialize_total dbg sink env hg hm ty name hr v hv
    (rootPlainFree_of (hp.imp id fun h => ⟨allNamed_of env hg hm h.1, h.2⟩) hv)

/-- The types of the two declarations above: `books: Vec<Library>`, `lang: Option<String>`, `note: String`, `kind: Kind`, and
`Novel(Library)`. -/
def ExM.rustTypes (f : String) : FieldTypes where
  element := if f = "books" then ⟨.many, .strct 0⟩ else ⟨.one, .text .string⟩
  «attribute» := (true, .string)
  flatten := 0
  text := .string
  default := .opt none

def ExM.types : Env where
  strct _ := ExM.libraryIs.toDef ExM.rustTypes
  enm _ := ExM.kindIs.toDef "Kind" [
    { ident := "Novel", attrs := ExM.attrs [kv "prefix" "l", kv "rename" "novel"], fields := .unnamed 1 },
    { ident := "Other", attrs := ExM.attrs [word "skip", word "nonsense"], fields := .unnamed 2 },
    { ident := "Poem", attrs := ExM.attrs [kv "prefix" "l"], fields := .unit }] fun _ => ⟨.one, .strct 0⟩

theorem ExM.types_generated : Generated ExM.types where
  structs _ := ⟨ExM.library, ExM.libraryIs, ExM.rustTypes, ExM.library_described, rfl⟩
  enums _ := ⟨ExM.kind, ExM.kindIs, _, _, ExM.kind_described, rfl, rfl⟩

theorem ExM.types_mappings (ty : Ty) : ∀ x ∈ declaredNs ExM.types ty, MayDeclare x.1 x.2 := by
  cases ty <;> simp [declaredNs, ExM.types, MStruct.toDef, MEnum.toDef, ExM.libraryIs, ExM.kindIs, MayDeclare, xmlNs]

theorem ExM.types_prefixed : AllPrefixed ExM.types where
  fields i f s hf hk := by
    simp only [ExM.types, MStruct.toDef, ExM.libraryIs, MField.toField, MName.declared, List.map_cons, List.map_nil, List.mem_cons,
      List.not_mem_nil, or_false] at hf
    rcases hf with rfl | rfl | rfl | rfl <;> simp at hk ⊢
  variants i w hw hs := by
    simp only [ExM.types, MEnum.toDef, List.map_cons, List.map_nil, List.mem_cons, List.not_mem_nil, or_false] at hw
    rcases hw with rfl | rfl | rfl
    · simp [MEnum.variant, ExM.kindIs, MName.declared]
    · simp [MEnum.variant, ExM.kindIs] at hs
    · simp [MEnum.variant, ExM.kindIs, MName.declared]

example (dbg : Bool) (sink : Sink) (v : Val) (hv : HasTy ExM.types (.strct 0) v) :
    ∃ s r, serializeVal dbg sink ExM.types { ns := "urn:lib", loc := "Library" } (.strct 0) v = .ok (s, r) :=
  C37_serialize_total_types dbg sink ExM.types ExM.types_generated ExM.types_mappings (.strct 0) _ rfl
    (.inr ⟨ExM.types_prefixed, by decide⟩) v hv

/-! ### Which declarations are accepted -/

/-- C40: the macros report no error exactly for the declarations in order, and then a description exists. -/
theorem C40_accepted_iff (d : Decl) (h : ¬ UsesReserved d) :
    DeclOk d ↔ ∃ t, describe d = .ok (some t, []) := by
  rcases describe_spec d with ⟨h', _⟩ | ⟨_, r, errs, he, h1, h2⟩
  · exact absurd h' h
  · rw [he]
    constructor
    · intro hd
      obtain ⟨t, rfl, _⟩ := h2 (h1.mpr hd)
      exact ⟨t, by rw [h1.mpr hd]⟩
    · rintro ⟨t, ht⟩
      injection ht with ht
      injection ht with _ ht
      exact h1.mp ht

example : ¬ UsesReserved ExM.library ∧ DeclOk ExM.library := by
  have h : ¬ UsesReserved ExM.library := by
    rcases describe_spec ExM.library with ⟨_, h⟩ | ⟨h, _⟩
    · rw [ExM.library_described] at h; cases h
    · exact h
  exact ⟨h, (C40_accepted_iff _ h).mpr ⟨_, ExM.library_described⟩⟩

/-- C40: a declaration that is not in order is reported, unless the macro panics. -/
theorem C40_reported (d : Decl) (h : ¬ UsesReserved d) (hd : ¬ DeclOk d) : ∃ r e errs, describe d = .ok (r, e :: errs) := by
  rcases describe_spec d with ⟨h', _⟩ | ⟨_, r, errs, he, h1, h2⟩
  · exact absurd h' h
  · cases errs with
    | nil => exact absurd (h1.mp rfl) hd
    | cons e errs => exact ⟨r, e, errs, he⟩

/-- A prefix nobody declared; `flatten` with a default; two text fields; a variant with two fields; a tuple struct. -/
def ExM.bad : List Decl := [
  { ident := "A", attrs := [], data := .named [{ ident := "x", attrs := ExM.attrs [kv "prefix" "p"] }] },
  { ident := "B", attrs := [], data := .named [{ ident := "x", attrs := ExM.attrs [word "flatten", word "default"] }] },
  { ident := "C", attrs := [], data := .named [{ ident := "x", attrs := ExM.attrs [word "text"] }, { ident := "y", attrs := ExM.attrs [word "text"] }] },
  { ident := "D", attrs := [], data := .enm [{ ident := "X", attrs := [], fields := .unnamed 2 }] },
  { ident := "E", attrs := [], data := .unnamed },
  { ident := "F", attrs := ExM.attrs [kv "namespace" "a: urn:1", kv "namespace" "a: urn:2"], data := .named [] }]

example : ∀ d ∈ ExM.bad, ¬ DeclOk d ∧ ¬ UsesReserved d := by
  intro d hd
  rcases describe_spec d with ⟨_, h⟩ | ⟨hr, r, errs, he, h1, _⟩
  · simp only [ExM.bad, List.mem_cons, List.not_mem_nil, or_false] at hd
    rcases hd with rfl | rfl | rfl | rfl | rfl | rfl <;> cases h
  · refine ⟨fun hd' => ?_, hr⟩
    have := h1.mpr hd'
    subst this
    simp only [ExM.bad, List.mem_cons, List.not_mem_nil, or_false] at hd
    rcases hd with rfl | rfl | rfl | rfl | rfl | rfl <;> cases he

/-! ### Panics of the macros -/

/-- C41: the macros for `Serialize` panic exactly for declarations with a reserved namespace prefix; on all others they end with a
description or errors. -/
theorem C41_panics_iff (d : Decl) : describe d = .error .panic ↔ UsesReserved d := by
  rcases describe_spec d with ⟨h, h'⟩ | ⟨h, r, errs, he, _⟩
  · exact ⟨fun _ => h, fun _ => h'⟩
  · rw [he]
    exact ⟨nofun, fun h' => absurd h' h⟩

theorem C41_no_other_fault (d : Decl) (f : Fault) (h : describe d = .error f) : f = .panic := by
  rcases describe_spec d with ⟨_, h'⟩ | ⟨_, r, errs, he, _⟩
  · rw [h'] at h; injection h with h; exact h.symm
  · rw [he] at h; cases h

/-- `xmlp: urn:u` is not a reserved prefix in XML's sense, but panics here. -/
def ExM.reserved : Decl := { ident := "A", attrs := ExM.attrs [kv "namespace" "xmlp: urn:u"], data := .named [] }

example : UsesReserved ExM.reserved := (C41_panics_iff _).mp rfl

/-- C41, for `Deserialize`: it also panics on every text field, in declarations without errors. -/
theorem C41_deserialize_panics_iff (d : Decl) (h : DeclOk d) (hr : ¬ UsesReserved d) :
    describeDe d = .error .panic ↔ ∃ fields, d.data = .named fields ∧ ∃ f ∈ fields, word "text" ∈ attrItems f.attrs := by
  obtain ⟨t, ht⟩ := (C40_accepted_iff d hr).mp h
  have hd := C37_description d t ht
  unfold describeDe
  rw [ht]
  cases t with
  | enm e =>
    obtain ⟨vs, hvs, _⟩ := hd
    simp [hvs]
  | strct s =>
    obtain ⟨fields, hfs, _, hrow⟩ := hd
    have key : (s.fields.any fun f => f.mode == .text) = true ↔ ∃ f ∈ fields, word "text" ∈ attrItems f.attrs := by
      clear ht hfs
      generalize s.fields = l at hrow
      induction hrow with
      | nil => simp
      | cons hx _ ih =>
        rename_i a b _ _ _
        simp only [List.any_cons, Bool.or_eq_true, exists_cons_iff, ih]
        refine or_congr ?_ Iff.rfl
        have := hx.mode
        generalize b.mode = m at this
        cases this <;> simp_all <;> decide
    simp only []
    split
    · rename_i hc
      exact ⟨fun _ => ⟨fields, hfs, key.mp hc⟩, fun _ => rfl⟩
    · rename_i hc
      refine ⟨nofun, ?_⟩
      rintro ⟨fs, h1, h2⟩
      rw [hfs] at h1
      injection h1 with h1
      subst h1
      exact absurd (key.mpr h2) hc

def ExM.textual : Decl := { ident := "A", attrs := [], data := .named [{ ident := "x", attrs := ExM.attrs [word "text"] }] }

example : DeclOk ExM.textual ∧ ¬ UsesReserved ExM.textual ∧ describeDe ExM.textual = .error .panic := by
  have h : ¬ UsesReserved ExM.textual := fun h => by have := (C41_panics_iff _).mpr h; cases this
  exact ⟨(C40_accepted_iff _ h).mpr ⟨_, rfl⟩, h, rfl⟩

/-- C37, C41: the check for reserved prefixes is made before white space is removed, so that a space in front defeats it: the
mapping declared is for `xml`, and the condition of `C37_serialize_total` does not hold. -/
theorem C37_reserved_prefix_counterexample :
    ∃ d s, describe d = .ok (some (.strct s), []) ∧ ("xml", "urn:u") ∈ s.attr.namespaces ∧ ¬ UsesReserved d ∧
      ¬ MayDeclare "xml" "urn:u" := by
  refine ⟨{ ident := "A", attrs := ExM.attrs [kv "namespace" " xml: urn:u"], data := .named [] },
    { attr := { name := { loc := "A", pfx := none, ns := none }, namespaces := [("xml", "urn:u")] }, fields := [] }, rfl, by simp, ?_, ?_⟩
  · intro h
    have := (C41_panics_iff _).mpr h
    cases this
  · rintro ⟨h, _⟩
    exact h rfl

/-! ### Text types -/

/-- C42: the macros for text types report no error exactly for the declarations in order; what they then generate code from says
what the declaration says. -/
theorem C42_text_accepted_iff (d : Decl) : TextDeclOk d ↔ ∃ t, describeText d = (some t, []) := by
  obtain ⟨h1, h2⟩ := describeText_spec d
  constructor
  · intro h
    obtain ⟨t, ht, _⟩ := h2 (h1.mpr h)
    exact ⟨t, Prod.ext ht (h1.mpr h)⟩
  · rintro ⟨t, ht⟩
    exact h1.mp (by rw [ht])

theorem C42_text_description (d : Decl) (t : TextDescribed) (h : describeText d = (some t, [])) : TextDescribes d t := by
  obtain ⟨t', ht, hd⟩ := (describeText_spec d).2 (by rw [h])
  rw [h] at ht
  injection ht with ht
  rw [ht]; exact hd

theorem lastOf_unique {key : String} {items : List NMeta} {a b : Lit} (ha : LastOf key items a) (hb : LastOf key items b) : a = b := by
  obtain ⟨p, q, h1, h2⟩ := ha
  obtain ⟨p', q', h3, h4⟩ := hb
  rw [h1] at h3
  rcases List.append_eq_append_iff.mp h3 with ⟨x, hx, hy⟩ | ⟨x, hx, hy⟩
  · cases x with
    | nil =>
      simp only [List.nil_append, List.cons.injEq, NMeta.nameValue.injEq] at hy
      exact hy.1.2
    | cons y x =>
      simp only [List.cons_append, List.cons.injEq] at hy
      exact absurd (by rw [hy.2]; simp) (h2 b)
  · cases x with
    | nil =>
      simp only [List.nil_append, List.cons.injEq, NMeta.nameValue.injEq] at hy
      exact hy.1.2.symm
    | cons y x =>
      simp only [List.cons_append, List.cons.injEq] at hy
      exact absurd (by rw [hy.2]; simp) (h4 a)

theorem localName_unique {ident : String} {items : List NMeta} {a b : String} (ha : LocalName ident items a) (hb : LocalName ident items b) :
    a = b := by
  have no : ∀ {x}, NoneOf "rename" items → ¬ LastOf "rename" items x := by
    rintro x h ⟨p, q, hpq, _⟩
    exact h x (by rw [hpq]; simp)
  rcases ha with ⟨ha, rfl⟩ | ha <;> rcases hb with ⟨hb, rfl⟩ | hb
  · rfl
  · exact absurd hb (no ha)
  · exact absurd ha (no hb)
  · have := lastOf_unique ha hb
    injection this

/-- A variant of a restriction whose declared text is `t`. -/
def Spec.HasText (v : DVariant) (t : String) : Prop := ¬ Unknown v ∧ LocalName v.ident (attrItems v.attrs) t

theorem Spec.Rowwise.get {α β : Type} {R : α → β → Prop} {l : List α} {m : List β} (h : Rowwise R l m) (i : Nat) :
    (l[i]? = none ∧ m[i]? = none) ∨ ∃ a b, l[i]? = some a ∧ m[i]? = some b ∧ R a b := by
  induction h generalizing i with
  | nil => simp
  | cons h t ih => cases i <;> simp_all

theorem restrictionIs_text {v : DVariant} {r : Option String} (h : RestrictionIs v r) (t : String) : r = some t ↔ HasText v t := by
  rcases h with ⟨hu, rfl⟩ | ⟨t', hu, rfl, hl⟩
  · simp [HasText, hu]
  · simp only [Option.some.injEq, HasText, hu, not_false_eq_true, true_and]
    exact ⟨fun h => h ▸ hl, fun h => localName_unique hl h⟩

theorem restriction_at {vs : List DVariant} {table : List (Option String)} (h : Rowwise RestrictionIs vs table) (i : Nat) (t : String) :
    table[i]? = some (some t) ↔ ∃ v, vs[i]? = some v ∧ HasText v t := by
  rcases h.get i with ⟨h1, h2⟩ | ⟨a, b, h1, h2, hr⟩
  · simp [h1, h2]
  · simp only [h1, h2, Option.some.injEq, exists_eq_left', restrictionIs_text hr t]

theorem restriction_unknown {vs : List DVariant} {table : List (Option String)} (h : Rowwise RestrictionIs vs table) :
    none ∈ table ↔ ∃ v ∈ vs, Unknown v := by
  induction h with
  | nil => simp
  | cons h t ih =>
    rw [exists_cons_iff, List.mem_cons, ih]
    refine or_congr ?_ Iff.rfl
    rcases h with ⟨hu, rfl⟩ | ⟨t', hu, rfl, hl⟩ <;> simp [hu]

/-- What parsing a text, normalized to `t`, with a restriction gives, by its declaration. -/
inductive Spec.Restricted (vs : List DVariant) (ident t : String) : Res TErr TVal → Prop where
  | known {i : Nat} {v : DVariant} (hv : vs[i]? = some v) (ht : HasText v t) (first : ∀ j w, j < i → vs[j]? = some w → ¬ HasText w t) :
      Restricted vs ident t (.ok (.known i))
  | unknown (no : ∀ v ∈ vs, ¬ HasText v t) (hu : ∃ v ∈ vs, Unknown v) : Restricted vs ident t (.ok (.unknown t))
  | reject (no : ∀ v ∈ vs, ¬ HasText v t) (hu : ∀ v ∈ vs, ¬ Unknown v) : Restricted vs ident t (.err (.noSuchVariant ident t))

/-- C42, C06: the generated parser of a restriction accepts a text exactly as the declaration says. -/
theorem C42_restriction_parse (d : Decl) (ws : WhiteSpace) (table : List (Option String)) (h : describeText d = (some (.restriction ws table), []))
    (text : String) : ∃ vs, d.data = .enm vs ∧ WsIs (attrItems d.attrs) ws ∧
      Restricted vs d.ident (normText ws text) ((TextTy.restriction d.ident ws table).parse text) := by
  obtain ⟨_, hw, vs, hvs, hr⟩ := C42_text_description d _ h
  refine ⟨vs, hvs, hw, ?_⟩
  have no : some (normText ws text) ∉ table → ∀ v ∈ vs, ¬ HasText v (normText ws text) := by
    intro hn v hv ht
    obtain ⟨i, hi⟩ := List.mem_iff_getElem?.mp hv
    exact hn (List.mem_iff_getElem?.mpr ⟨i, (restriction_at hr i _).mpr ⟨v, hi, ht⟩⟩)
  have := C06_restriction_parse d.ident ws table text
  generalize (TextTy.restriction d.ident ws table).parse text = r at this
  unfold RestrictionResult at this
  split at this
  · obtain ⟨h1, h2⟩ := this
    obtain ⟨v, hv, ht⟩ := (restriction_at hr _ _).mp h1
    exact .known hv ht fun j w hj hw' ht' => h2 j hj ((restriction_at hr _ _).mpr ⟨w, hw', ht'⟩)
  · obtain ⟨h1, h2, rfl⟩ := this
    exact .unknown (no h1) ((restriction_unknown hr).mp h2)
  · obtain ⟨h1, h2, rfl, rfl⟩ := this
    exact .reject (no h1) fun v hv hu => h2 ((restriction_unknown hr).mpr ⟨v, hv, hu⟩)
  · exact this.elim

/-- ```
#[static_xml(mode = "restriction", whitespace = "collapse")]
enum Size { Small, #[static_xml(rename = "very large")] Large, #[static_xml(unknown)] Other(String) }
``` -/
def ExM.size : Decl where
  ident := "Size"
  attrs := ExM.attrs [kv "mode" "restriction", kv "whitespace" "collapse"]
  data := .enm [
    { ident := "Small", attrs := [], fields := .unit },
    { ident := "Large", attrs := ExM.attrs [kv "rename" "very large"], fields := .unit },
    { ident := "Other", attrs := ExM.attrs [word "unknown"], fields := .unnamed 1 }]

theorem ExM.size_described :
    describeText ExM.size = (some (.restriction .collapse [some "Small", some "very large", none]), []) := rfl

example := C42_restriction_parse ExM.size _ _ ExM.size_described " very  large "

example : TextDeclOk ExM.size := (C42_text_accepted_iff _).mpr ⟨_, ExM.size_described⟩

/-! ### Enums -/

/-- C40: a variant of an enum's definition, used in the theorems about generated code, is what the declaration says: skipped or not,
its local name and namespace, and whether it has a value. -/
theorem C40_variant (d : Decl) (e : MEnum) (vs : List DVariant) (ty : String → Slot) (h : describe d = .ok (some (.enm e), []))
    (hd : d.data = .enm vs) (hn : (vs.map (·.ident)).Nodup) (v : DVariant) (hv : v ∈ vs) :
    ((e.variant ty v).skip = true ↔ Skipped v) ∧ ((e.variant ty v).slot = none ↔ v.fields = .unit) ∧
    (v.fields ≠ .unit → (e.variant ty v).slot = some (ty v.ident)) ∧
    (¬ Skipped v → LocalName v.ident (attrItems v.attrs) (e.variant ty v).name.loc ∧
      NameNs (Mapped (attrItems d.attrs)) (attrItems v.attrs) (e.variant ty v).name.ns ∧ (v.fields = .unit ∨ v.fields = .unnamed 1)) := by
  obtain ⟨vs', hvs', _, hrow, hskip⟩ := C37_description d _ h
  rw [hd] at hvs'
  injection hvs' with hvs'
  subst hvs'
  have uniq : ∀ w ∈ vs, w.ident = v.ident → w = v := by
    intro w hw heq
    clear hrow hd h hskip
    induction vs with
    | nil => simp at hv
    | cons x l ih =>
      simp only [List.map_cons, List.nodup_cons, List.mem_map, not_exists, not_and] at hn
      rcases List.mem_cons.mp hv with rfl | hv' <;> rcases List.mem_cons.mp hw with rfl | hw'
      · rfl
      · exact absurd heq (hn.1 w hw')
      · exact absurd heq.symm (hn.1 v hv')
      · exact ih hn.2 hv' hw'
  unfold MEnum.variant
  split
  · rename_i x hx
    have hxm := List.mem_of_find?_eq_some hx
    have hxi : x.ident = v.ident := by simpa using List.find?_some hx
    obtain ⟨w, hw, hxw⟩ := hrow.of_mem hxm
    simp only [List.mem_filter, decide_eq_true_eq] at hw
    have hwv : w = v := uniq w hw.1 (hxw.ident.symm.trans hxi)
    subst hwv
    have hp := hxw.payload
    refine ⟨by simp [Skipped, hw.2], ?_, ?_, fun _ => ⟨hxw.loc, hxw.ns, ?_⟩⟩ <;> cases hpl : x.payload <;> simp_all
  · rename_i hx
    have hs : Skipped v := by
      refine Classical.byContradiction fun hs => ?_
      obtain ⟨i, hi⟩ := List.mem_iff_getElem?.mp (List.mem_filter.mpr ⟨hv, decide_eq_true hs⟩ :
        v ∈ vs.filter fun v => decide (word "skip" ∉ attrItems v.attrs))
      rcases hrow.get i with ⟨h1, _⟩ | ⟨a, b, h1, h2, hr⟩
      · rw [hi] at h1; cases h1
      · rw [hi] at h1
        injection h1 with h1
        subst h1
        have := List.find?_eq_none.mp hx b (List.mem_of_getElem? h2)
        simp [hr.ident] at this
    exact ⟨by simp [hs], by simp, fun h => by simp [h], fun h => absurd hs h⟩

example (ty : String → Slot) : (ExM.kindIs.variant ty { ident := "Novel", attrs := ExM.attrs [kv "prefix" "l", kv "rename" "novel"], fields := .unnamed 1 }) =
    { name := { ns := some "urn:lib", loc := "novel" }, slot := some (ty "Novel"), skip := false } := rfl
