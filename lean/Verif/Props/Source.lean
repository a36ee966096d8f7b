import Verif.Spec.Source
import Verif.Props.Macro
import Verif.Props.Derive
import Verif.Props.DeriveSer

/-
C47: documents are read and written as the source says.
-/
namespace SX
open SX.Spec

theorem fieldMeans_of {mapped : String → String → Prop} {f : DField} {r : MField} (ty : FieldTypes) (h : FieldIs mapped f r) :
    FieldMeans mapped ty f (r.toField ty) := by
  have hm := h.mode
  refine ⟨⟨r.name.ns, h.ns, h.loc, rfl⟩, ?_, ?_, ?_, ?_, ?_⟩
  · intro hs
    have ha := hs "attribute" (by simp)
    have hf := hs "flatten" (by simp)
    have ht := hs "text" (by simp)
    simp only [MField.toField]
    generalize r.mode = m at hm
    cases hm <;> first | rfl | contradiction
  · intro hw
    simp only [MField.toField]
    generalize r.mode = m at hm
    cases hm <;> first | rfl | contradiction
  · intro hw
    simp only [MField.toField]
    generalize r.mode = m at hm
    cases hm <;> first | rfl | contradiction
  · intro hw
    simp only [MField.toField]
    generalize r.mode = m at hm
    cases hm <;> first | rfl | contradiction
  · simp only [MField.toField, sourceDefault]
    have := h.default
    by_cases hd : word "default" ∈ attrItems f.attrs
    · simp [hd, this.mpr hd]
    · have hf : r.default = false := by
        cases hr : r.default with
        | false => rfl
        | true => exact absurd (this.mp hr) hd
      simp [hd, hf]

/-- C47: the generated code of a struct works on its fields in the source: the same number of them, in the same order, each with the
expanded name, mode, type and default value that the source gives it. -/
theorem C47_fields (d : Decl) (s : MStruct) (ty : String → FieldTypes) (h : describe d = .ok (some (.strct s), [])) :
    ∃ fields, d.data = .named fields ∧ (s.toDef ty).fields.length = fields.length ∧
      ∀ (p : Nat) f, fields[p]? = some f → ∃ g, (s.toDef ty).fields[p]? = some g ∧ FieldMeans (Mapped (attrItems d.attrs)) (ty f.ident) f g := by
  obtain ⟨fields, hd, _, hr⟩ := C37_description d _ h
  refine ⟨fields, hd, ?_, ?_⟩
  · simp only [MStruct.toDef, List.length_map]
    clear hd h
    generalize s.fields = l at hr
    induction hr with
    | nil => rfl
    | cons _ _ ih => simp [ih]
  · intro p f hf
    rcases hr.get p with ⟨h1, _⟩ | ⟨a, b, h1, h2, hab⟩
    · rw [hf] at h1; cases h1
    · rw [hf] at h1
      cases h1
      refine ⟨b.toField (ty b.ident), by simp [MStruct.toDef, h2], ?_⟩
      rw [hab.ident]
      exact fieldMeans_of _ hab

namespace ExM

/-- ```
#[static_xml(namespace = "l: urn:lib")]
enum Kind { #[static_xml(prefix = "l", rename = "novel")] Novel(Library), #[static_xml(prefix = "l")] Poem }
``` -/
def readable : Env where
  strct _ := libraryIs.toDef rustTypes
  enm _ := { ident := "Kind", root := { ns := none, loc := "Kind" }, namespaces := [("l", "urn:lib")], variants := [
    { name := { ns := some "urn:lib", loc := "novel" }, slot := some ⟨.one, .strct 0⟩, skip := false },
    { name := { ns := some "urn:lib", loc := "Poem" }, slot := none, skip := false }] }

theorem readable_ok : EnvOk readable where
  elems i p q f g s s' hf hg hk hk' hn := by
    simp only [readable, MStruct.toDef, libraryIs, MField.toField, MName.declared] at hf hg
    rcases p with _ | _ | _ | _ | p <;> rcases q with _ | _ | _ | _ | q <;> simp_all <;> subst hf <;> subst hg <;> simp_all [DName.expanded]
  attrs i p q f g o t o' t' hf hg hk hk' hn := by
    simp only [readable, MStruct.toDef, libraryIs, MField.toField, MName.declared] at hf hg
    rcases p with _ | _ | _ | _ | p <;> rcases q with _ | _ | _ | _ | q <;> simp_all <;> subst hf <;> subst hg <;> simp_all
  noText i f t hf hk := by
    simp only [readable, MStruct.toDef, libraryIs, MField.toField, MName.declared, List.map_cons, List.map_nil, List.mem_cons,
      List.not_mem_nil, or_false] at hf
    rcases hf with rfl | rfl | rfl | rfl <;> simp at hk
  variants i p q v w hv hw hn := by
    simp only [readable] at hv hw
    rcases p with _ | _ | p <;> rcases q with _ | _ | q <;> simp_all <;> subst hv <;> subst hw <;> simp_all [DName.expanded]
  noneFirst i d hd e he h1 h2 := by
    simp only [readable, List.map_cons, List.map_nil, List.mem_cons, List.not_mem_nil, or_false] at he
    rcases he with rfl | rfl <;> simp at h2
  noSkip i v hv := by
    simp only [readable, List.mem_cons, List.not_mem_nil, or_false] at hv
    rcases hv with rfl | rfl <;> rfl

/-- `<l:Library xmlns:l="urn:lib" xmlns="urn:default" xml:lang="en"><note>n</note><l:Poem/></l:Library>` -/
def doc : Doc :=
  Ex.docOf [{ name := { loc := "lang", ns := some xmlNs, pfx := some "xml" }, value := "en" }]
    (Ex.leaf { loc := "note", ns := some "urn:default", pfx := none } "n" (Ex.empt { loc := "Poem", ns := some "urn:lib", pfx := some "l" } .nil))

def val : Val := .strct [.vec [], .opt (some (.text (.str "en"))), .text (.str "n"), .enm 1 none]

theorem doc_read : readTy true readable (.strct 0) doc.input = .ok (.ok val) := rfl

end ExM

/-- The field `note` has no mode, and its name is in the default namespace, as its prefix is empty. -/
example : SaysElement { ident := "note", attrs := ExM.attrs [kv "prefix" " "] } ∧
    ∃ g, (ExM.libraryIs.toDef ExM.rustTypes).fields[2]? = some g ∧ g.name.expanded = { ns := "urn:default", loc := "note" } ∧
      FieldMeans (Mapped (attrItems ExM.library.attrs)) (ExM.rustTypes "note") { ident := "note", attrs := ExM.attrs [kv "prefix" " "] } g := by
  obtain ⟨fields, hd, _, h⟩ := C47_fields ExM.library ExM.libraryIs ExM.rustTypes ExM.library_described
  cases hd
  obtain ⟨g, hg, hm⟩ := h 2 _ rfl
  refine ⟨by unfold SaysElement; decide, g, hg, ?_, hm⟩
  cases hg
  rfl

/-- C47, reading: a field of the source without a mode gets its value from the child elements with its name. -/
theorem C47_read_element (dbg : Bool) (env : Env) (hok : EnvOk env) (i : Nat) (d : Decl) (s : MStruct) (ty : String → FieldTypes)
    (h : describe d = .ok (some (.strct s), [])) (he : env.strct i = s.toDef ty) (fields : List DField) (hd : d.data = .named fields)
    (doc : Doc) (vs : List Val) (hr : readTy dbg env (.strct i) doc.input = .ok (.ok (.strct vs)))
    (p : Nat) (f : DField) (hf : fields[p]? = some f) (hm : SaysElement f) :
    ∃ n w, SourceName (Mapped (attrItems d.attrs)) f n ∧ vs[p]? = some w ∧
      Fits env (ty f.ident).element (sourceDefault f (ty f.ident).default) (doc.root.children.childrenNamed n) w := by
  obtain ⟨fields', hd', _, hx⟩ := C47_fields d s ty h
  rw [hd] at hd'
  cases hd'
  obtain ⟨g, hg, hmean⟩ := hx p f hf
  obtain ⟨w, hw, hfit⟩ := C18_element_field dbg env hok i doc vs hr p g (ty f.ident).element (by rw [he]; exact hg) (hmean.element hm)
  exact ⟨_, w, hmean.name, hw, hmean.default ▸ hfit⟩

/-- The book list is empty, as no child element has the name `{urn:lib}book`. -/
example : ∃ n w, SourceName (Mapped (attrItems ExM.library.attrs)) { ident := "books", attrs := ExM.attrs [kv "rename" "book", kv "prefix" "l"] } n ∧
    [Val.vec [], .opt (some (.text (.str "en"))), .text (.str "n"), .enm 1 none][0]? = some w ∧
    Fits ExM.readable ⟨.many, .strct 0⟩ none (ExM.doc.root.children.childrenNamed n) w :=
  C47_read_element true ExM.readable ExM.readable_ok 0 ExM.library ExM.libraryIs ExM.rustTypes ExM.library_described rfl _ rfl
    ExM.doc _ ExM.doc_read 0 _ rfl (by unfold SaysElement; decide)

/-- C47, reading: a field of the source marked `attribute` gets its value from the attributes with its name. -/
theorem C47_read_attribute (dbg : Bool) (env : Env) (hok : EnvOk env) (i : Nat) (d : Decl) (s : MStruct) (ty : String → FieldTypes)
    (h : describe d = .ok (some (.strct s), [])) (he : env.strct i = s.toDef ty) (fields : List DField) (hd : d.data = .named fields)
    (doc : Doc) (vs : List Val) (hr : readTy dbg env (.strct i) doc.input = .ok (.ok (.strct vs)))
    (p : Nat) (f : DField) (hf : fields[p]? = some f) (hm : word "attribute" ∈ attrItems f.attrs) :
    ∃ n w, SourceName (Mapped (attrItems d.attrs)) f n ∧ vs[p]? = some w ∧
      AttrFits (ty f.ident).attribute.1 (ty f.ident).attribute.2 (sourceDefault f (ty f.ident).default)
        (doc.root.attrs.filter fun a => a.name.expanded == n) w := by
  obtain ⟨fields', hd', _, hx⟩ := C47_fields d s ty h
  rw [hd] at hd'
  cases hd'
  obtain ⟨g, hg, hmean⟩ := hx p f hf
  obtain ⟨w, hw, hfit⟩ := C19_attribute_field dbg env hok i doc vs hr p g _ _ (by rw [he]; exact hg) (hmean.attribute hm)
  exact ⟨_, w, hmean.name, hw, hmean.default ▸ hfit⟩

/-- `xml:lang` -/
example : ∃ n w, SourceName (Mapped (attrItems ExM.library.attrs))
      { ident := "lang", attrs := ExM.attrs [word "attribute", kv "prefix" "xml", word "default"] } n ∧
    [Val.vec [], .opt (some (.text (.str "en"))), .text (.str "n"), .enm 1 none][1]? = some w ∧
    AttrFits true .string (some (.opt none)) (ExM.doc.root.attrs.filter fun a => a.name.expanded == n) w :=
  C47_read_attribute true ExM.readable ExM.readable_ok 0 ExM.library ExM.libraryIs ExM.rustTypes ExM.library_described rfl _ rfl
    ExM.doc _ ExM.doc_read 1 _ rfl (by decide)

theorem shows_kids {env : Env} {l : List Item} {g : EForest} (h : Shows env l g) (n : EName) (ty : Ty) (w : Val)
    (hm : { name := n, value := some (ty, w) } ∈ l) : ∃ as c, (n, as, c) ∈ g.kids ∧ Represents env n ty w as c := by
  induction h with
  | nil => cases hm
  | unit rest ih =>
    rcases List.mem_cons.mp hm with hm | hm
    · simp at hm
    · obtain ⟨as, c, h1, h2⟩ := ih hm
      exact ⟨as, c, by simp [EForest.kids, h1], h2⟩
  | text h rest ih =>
    rcases List.mem_cons.mp hm with hm | hm
    · simp only [Item.mk.injEq, Option.some.injEq, Prod.mk.injEq] at hm
      obtain ⟨rfl, rfl, rfl⟩ := hm
      exact ⟨_, _, List.mem_cons_self .., .text h .nil⟩
    · obtain ⟨as, c, h1, h2⟩ := ih hm
      exact ⟨as, c, by simp [EForest.kids, h1], h2⟩
  | strct children rest _ ih =>
    rcases List.mem_cons.mp hm with hm | hm
    · simp only [Item.mk.injEq, Option.some.injEq, Prod.mk.injEq] at hm
      obtain ⟨rfl, rfl, rfl⟩ := hm
      exact ⟨_, _, List.mem_cons_self .., .strct children .nil⟩
    · obtain ⟨as, c, h1, h2⟩ := ih hm
      exact ⟨as, c, by simp [EForest.kids, h1], h2⟩
  | enm children rest _ ih =>
    rcases List.mem_cons.mp hm with hm | hm
    · simp only [Item.mk.injEq, Option.some.injEq, Prod.mk.injEq] at hm
      obtain ⟨rfl, rfl, rfl⟩ := hm
      exact ⟨_, _, List.mem_cons_self .., .enm children .nil⟩
    · obtain ⟨as, c, h1, h2⟩ := ih hm
      exact ⟨as, c, by simp [EForest.kids, h1], h2⟩

theorem zip_get {α β : Type} {l : List α} {m : List β} {p : Nat} {a : α} {b : β} (ha : l[p]? = some a) (hb : m[p]? = some b) :
    (a, b) ∈ l.zip m :=
  List.mem_iff_getElem?.mpr ⟨p, by simp [List.getElem?_zip_eq_some, ha, hb]⟩

/-- C47, writing: what is written is an element with, for every value in a field of the source without a mode, a child element
with the field's name that represents the value; and for every field marked `attribute` that has a text, an attribute with the
field's name and that text. -/
theorem C47_written (dbg : Bool) (sink : Sink) (env : Env) (henv : NamesDeclared env) (hdist : AttrsDistinct env) (i : Nat) (d : Decl)
    (s : MStruct) (ty : String → FieldTypes) (h : describe d = .ok (some (.strct s), [])) (he : env.strct i = s.toDef ty)
    (fields : List DField) (hd : d.data = .named fields) (name : EName) (hn : ElemNsOk (urls (declaredNs env (.strct i))) name)
    (vs : List Val) (hv : HasTy env (.strct i) (.strct vs)) (hpf : RootPlainFree env name (.strct i) (.strct vs)) (st : WState)
    (hs : serializeVal dbg sink env name (.strct i) (.strct vs) = .ok (st, .ok ())) :
    ∃ as, ∃ g : EForest, resolveEvents st.out [] = some (.start name as :: (g.events ++ [.stop])) ∧
      ∀ (p : Nat) f v, fields[p]? = some f → vs[p]? = some v → ∃ n, SourceName (Mapped (attrItems d.attrs)) f n ∧
        (SaysElement f → ∀ w ∈ valuesOf (ty f.ident).element.card v,
          ∃ as' g', (n, as', g') ∈ g.kids ∧ Represents env n (ty f.ident).element.ty w as' g') ∧
        (word "attribute" ∈ attrItems f.attrs → ∀ t, attrText (ty f.ident).attribute.1 (ty f.ident).attribute.2 v = some t → (n, t) ∈ as) := by
  obtain ⟨as, g, hrep, _⟩ := C32_represented hv name
  obtain ⟨st', r, hs', hres, _⟩ := C32_document_partial dbg sink env henv hdist name (.strct i) hn (.strct vs) as g hrep hpf
  rw [hs] at hs'
  cases hs'
  refine ⟨as, g, hres rfl, fun p f v hf hpv => ?_⟩
  obtain ⟨fields', hd', _, hx⟩ := C47_fields d s ty h
  rw [hd] at hd'
  cases hd'
  obtain ⟨k, hk, hmean⟩ := hx p f hf
  rw [← he] at hk
  have hz := zip_get hk hpv
  refine ⟨_, hmean.name, fun hm w hw => ?_, fun hm t ht => ?_⟩
  · cases hrep with
    | strct children rest =>
      refine shows_kids children _ _ _ (List.mem_append_left _ (List.mem_flatMap.mpr ⟨_, hz, ?_⟩))
      simp only [hmean.element hm, fieldItems, List.mem_map]
      exact ⟨w, hw, rfl⟩
  · cases hrep with
    | strct children rest =>
      refine List.mem_filterMap.mpr ⟨_, hz, ?_⟩
      simp only [hmean.attribute hm, ht, Option.map_some]

theorem ExM.val_ty : HasTy ExM.types (.strct 0) (.strct [.vec [], .opt (some (.text (.str "en"))), .text (.str "n"), .enm 2 none]) := by
  refine .strct rfl ?_ ?_ ?_
  · intro p f v hf hv
    simp only [ExM.types, MStruct.toDef, ExM.libraryIs, MField.toField, MName.declared] at hf
    rcases p with _ | _ | _ | _ | p <;> simp at hf hv <;> subst hf <;> subst hv
    · exact ⟨_, rfl⟩
    · exact .inr ⟨_, rfl, _, rfl, rfl⟩
    · exact trivial
    · exact trivial
  · intro p f s v w hf hv hk hw
    simp only [ExM.types, MStruct.toDef, ExM.libraryIs, MField.toField, MName.declared] at hf
    rcases p with _ | _ | _ | _ | p <;> simp at hf hv <;> subst hf <;> subst hv <;> simp at hk <;> subst hk
    · simp [ExM.rustTypes, valuesOf] at hw
    · simp only [ExM.rustTypes, valuesOf] at hw ⊢
      cases List.mem_singleton.mp hw
      exact .text rfl
  · intro p f e v hf hv hk
    simp only [ExM.types, MStruct.toDef, ExM.libraryIs, MField.toField, MName.declared] at hf
    rcases p with _ | _ | _ | _ | p <;> simp at hf hv <;> subst hf <;> subst hv <;> simp at hk
    exact .unit rfl rfl

theorem ExM.types_distinct : AttrsDistinct ExM.types := by
  intro i p q f g o t o' t' hf hg hk hk' hn
  simp only [ExM.types, MStruct.toDef, ExM.libraryIs, MField.toField, MName.declared] at hf hg
  rcases p with _ | _ | _ | _ | p <;> rcases q with _ | _ | _ | _ | q <;> simp_all <;> subst hf <;> subst hg <;> simp_all

section
attribute [local semireducible] writeChildren writeField writeVec writeElemFields writeFlattens

example : ∃ st, serializeVal true ExS.fine ExM.types { ns := "urn:lib", loc := "Library" } (.strct 0)
      (.strct [.vec [], .opt (some (.text (.str "en"))), .text (.str "n"), .enm 2 none]) = .ok (st, .ok ()) ∧
    ∃ as, ∃ g : EForest, resolveEvents st.out [] = some (.start { ns := "urn:lib", loc := "Library" } as :: (g.events ++ [.stop])) ∧
      ∃ n, SourceName (Mapped (attrItems ExM.library.attrs))
        { ident := "lang", attrs := ExM.attrs [word "attribute", kv "prefix" "xml", word "default"] } n ∧ (n, "en") ∈ as := by
  have hnd := C37_names_declared ExM.types ExM.types_generated ExM.types_mappings
  have hel : ElemNsOk (urls (declaredNs ExM.types (.strct 0))) { ns := "urn:lib", loc := "Library" } :=
    C37_root_declared ExM.types ExM.types_generated (.strct 0) _ rfl
  have hpf := rootPlainFree_of (env := ExM.types) (name := { ns := "urn:lib", loc := "Library" })
    (.inr ⟨allNamed_of ExM.types ExM.types_generated ExM.types_mappings ExM.types_prefixed, by decide⟩) ExM.val_ty
  obtain ⟨st, hst⟩ : ∃ st, serializeVal true ExS.fine ExM.types { ns := "urn:lib", loc := "Library" } (.strct 0)
      (.strct [.vec [], .opt (some (.text (.str "en"))), .text (.str "n"), .enm 2 none]) = .ok (st, .ok ()) := ⟨_, rfl⟩
  obtain ⟨as, g, h1, h2⟩ := C47_written true ExS.fine ExM.types hnd ExM.types_distinct 0 ExM.library ExM.libraryIs ExM.rustTypes
    ExM.library_described rfl _ rfl _ hel _ ExM.val_ty hpf st hst
  obtain ⟨n, hn, _, ha⟩ := h2 1 _ _ rfl rfl
  exact ⟨st, hst, as, g, h1, n, hn, ha (by decide) "en" rfl⟩
end

end SX
