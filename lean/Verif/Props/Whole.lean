import Verif.Proof.WholeSer
import Verif.Proof.WholeTied
import Verif.Props.RoundTrip
import Verif.Props.Typed

/-
C65: programs as a whole.
-/
namespace SX
open Spec Spec.Open SX.Gen Spec.Gen

/-- C65: the implementations of all types refer to each other; still they exist, and there are no two ways to understand the code. -/
theorem C65_types (c : Crate) (code : Emitted) : ∃ types, c.Tied code types ∧ ∀ types', c.Tied code types' → types' = types :=
  WholeTied.tied_unique c code

/-- C65: a crate that is accepted declares types. -/
theorem C65_env (c : Crate) (code : Emitted) (ha : Accepted c code) : ∃ env, DeclaresTypes c env := by
  have hS : ∀ i, ∃ s, describe (c.strct i) = .ok (some (.strct s), []) := fun i => by
    obtain ⟨s, h, _⟩ := Whole.derived_struct (ha.structs i)
    exact ⟨s, h⟩
  have hE : ∀ i, ∃ e, describe (c.enm i) = .ok (some (.enm e), []) := fun i => by
    obtain ⟨e, h, _⟩ := Whole.derived_enum (ha.enums i)
    exact ⟨e, h⟩
  obtain ⟨sOf, hS⟩ := Classical.axiomOfChoice hS
  obtain ⟨eOf, hE⟩ := Classical.axiomOfChoice hE
  exact ⟨{ strct := fun i => (sOf i).toDef fun f => c.means (c.fieldTy i f)
           enm := fun i => (eOf i).toDef (c.enm i).ident (variantsOf (c.enm i)) fun v => (c.means (c.payloadTy i v)).element },
    fun i => ⟨sOf i, hS i, rfl⟩, fun i => ⟨eOf i, hE i, rfl⟩⟩

/-- They are determined by the declarations, and other claims about types from declarations hold of them. -/
theorem C65_generated {c : Crate} {env : Env} (h : DeclaresTypes c env) : Generated env ∧ ∀ env', DeclaresTypes c env' → env' = env := by
  refine ⟨⟨fun i => ?_, fun i => ?_⟩, fun env' h' => ?_⟩
  · obtain ⟨s, h1, h2⟩ := h.structs i
    exact ⟨_, s, _, h1, h2⟩
  · obtain ⟨e, h1, h2⟩ := h.enums i
    refine ⟨_, e, _, _, h1, ?_, h2⟩
    obtain ⟨vs, hvs, -⟩ := C37_description _ _ h1
    unfold variantsOf
    rw [hvs]
  · have hs : env'.strct = env.strct := by
      funext i
      obtain ⟨s, h1, h2⟩ := h.structs i
      obtain ⟨s', h3, h4⟩ := h'.structs i
      rw [h1] at h3
      cases h3
      rw [h2, h4]
    have he : env'.enm = env.enm := by
      funext i
      obtain ⟨e, h1, h2⟩ := h.enums i
      obtain ⟨e', h3, h4⟩ := h'.enums i
      rw [h1] at h3
      cases h3
      rw [h2, h4]
    cases env
    cases env'
    simp_all

/-- C65: reading a value of any type with the code emitted for the whole crate does what Part II says of the declared types, whatever the
input: well-formed or not, with or without errors of the parser. -/
theorem C65_read (c : Crate) (code : Emitted) (types : Types) (env : Env) (ha : Accepted c code) (hu : Unskipped c) (hd : DeclaresTypes c env)
    (ht : c.Tied code types) (dbg : Bool) (ty : Ty) (i : Input) : someOk (c.read code types dbg ty i) = someOk (readTy dbg env ty i) := by
  obtain ⟨sOf, eOf, F⟩ := Whole.facts ha hu hd ht
  have h := Whole.read_rel F dbg ty i
  cases h1 : readTy dbg env ty i with
  | error e =>
    cases h2 : c.read code types dbg ty i with
    | error e' => rfl
    | ok y => rw [h1, h2] at h; exact h.elim
  | ok x =>
    cases h2 : c.read code types dbg ty i with
    | error e' => rw [h1, h2] at h; exact h.elim
    | ok y =>
      rw [h1, h2] at h
      change x = y at h
      rw [h]

/-- C65: so for documents: the emitted code does not panic; it returns a value exactly if the document is one for this value; otherwise it
returns an error. -/
theorem C65_value (c : Crate) (code : Emitted) (types : Types) (env : Env) (ha : Accepted c code) (hu : Unskipped c) (hd : DeclaresTypes c env)
    (ht : c.Tied code types) (hok : EnvOk env) (dbg : Bool) (ty : Ty) (d : Doc) :
    (∃ r, c.read code types dbg ty d.input = .ok r) ∧
    ∀ v, c.read code types dbg ty d.input = .ok (.ok v) ↔ bodyValue env (d.root.body env) ty = some v := by
  have h := C65_read c code types env ha hu hd ht dbg ty d.input
  have key : ∀ r, c.read code types dbg ty d.input = .ok r ↔ readTy dbg env ty d.input = .ok r := by
    intro r
    cases h1 : readTy dbg env ty d.input <;> cases h2 : c.read code types dbg ty d.input <;> rw [h1, h2] at h <;>
      simp only [someOk, reduceCtorEq, Option.some.injEq, Except.ok.injEq] at h ⊢
    rw [h]
  refine ⟨?_, fun v => ?_⟩
  · cases hb : bodyValue env (d.root.body env) ty with
    | none =>
      obtain ⟨E, hE⟩ := readTy_none dbg env hok ty d hb
      exact ⟨_, (key _).mpr hE⟩
    | some v => exact ⟨_, (key _).mpr ((C18_value dbg env hok ty d v).mpr hb)⟩
  · rw [key]
    exact C18_value dbg env hok ty d v

/-- C65: writing a value of any type with the code emitted for the whole crate does what Part II says, with the declared name of the root. -/
theorem C65_write (c : Crate) (code : SerEmitted) (env : Env) (ha : AcceptedSer c code) (hd : DeclaresTypes c env) (dbg : Bool) (sink : Sink)
    (name : EName) (ty : Ty) (v : Val) (hv : HasTy env ty v) :
    c.write code dbg sink name ty v = serializeVal dbg sink env name ty v ∧ c.root code ty = rootName env ty := by
  refine ⟨?_, ?_⟩
  · unfold Crate.write serializeVal
    rw [Whole.ser_eq ha hd hv]
    rfl
  · cases ty with
    | text t => rfl
    | strct i =>
      obtain ⟨s, h1, h2⟩ := hd.structs i
      obtain ⟨t, h3, h4⟩ := Whole.derived_ser (ha.structs i)
      rw [h1] at h3
      cases h3
      injection h4 with h4
      simp only [Crate.root, rootName, h4, h2]
      rfl
    | enm i =>
      obtain ⟨e, h1, h2⟩ := hd.enums i
      obtain ⟨t, h3, h4⟩ := Whole.derived_ser (ha.enums i)
      rw [h1] at h3
      cases h3
      injection h4 with h4
      simp only [Crate.root, rootName, h4, h2]
      rfl

/-- C65: what the emitted code of a crate wrote, with its root name, the emitted code reads back exactly if the value is `Readable`. -/
theorem C65_roundtrip (c : Crate) (code : Emitted) (types : Types) (ser : SerEmitted) (env : Env) (ha : Accepted c code) (hs : AcceptedSer c ser)
    (hu : Unskipped c) (hd : DeclaresTypes c env) (ht : c.Tied code types) (hok : EnvOk env) (hfl : FlattenOk env)
    (hm : ∀ ty, ∀ x ∈ declaredNs env ty, MayDeclare x.1 x.2) (dbg dbg' : Bool) (sink : Sink) (ty : Ty) (name : EName)
    (hn : c.root ser ty = some name) (hc : (∀ ty, asksDefault env ty = false) ∨ (AllPrefixed env ∧ name.ns ≠ "")) (v : Val) (hv : HasTy env ty v)
    (s : WState) (h : c.write ser dbg sink name ty v = .ok (s, .ok ())) (d : Doc) (hb : ReadsBack s.out d) :
    c.read code types dbg' ty d.input = .ok (.ok v) ↔ Readable env ty v := by
  have hg := (C65_generated hd).1
  obtain ⟨h1, h2⟩ := C65_write c ser env hs hd dbg sink name ty v hv
  rw [h1] at h
  rw [h2] at hn
  rw [(C65_value c code types env ha hu hd ht hok dbg' ty d).2 v, ← C18_value dbg' env hok]
  exact C35_roundtrip_iff dbg dbg' sink env (C37_names_declared env hg hm) hok hfl name ty (C37_root_declared env hg ty name hn) v hv
    (rootPlainFree_of (hc.imp id fun h => ⟨allNamed_of env hg hm h.1, h.2⟩) hv) s h d hb

/-! ### An example -/
namespace ExCrate

/-- ```
#[static_xml(prefix = "f", namespace = "f: urn:files")]
struct Folder {
    #[static_xml(attribute)] name: String,
    #[static_xml(prefix = "f", rename = "folder")] folders: Vec<Folder>,
    #[static_xml(flatten)] kind: Kind,
}
``` -/
def folder : Decl where
  ident := "Folder"
  attrs := [.foreign, .list [kv "prefix" "f", kv "namespace" "f: urn:files"]]
  data := .named [
    { ident := "name", attrs := [.list [word "attribute"]] },
    { ident := "folders", attrs := [.list [kv "prefix" "f", kv "rename" "folder"]] },
    { ident := "kind", attrs := [.list [word "flatten"]] }]

/-- ```
#[static_xml(namespace = "f: urn:files")]
enum Kind { #[static_xml(prefix = "f", rename = "shared")] Shared, #[static_xml(prefix = "f")] Sub(Folder) }
``` -/
def kind : Decl where
  ident := "Kind"
  attrs := [.list [kv "namespace" "f: urn:files"]]
  data := .enm [
    { ident := "Shared", attrs := [.list [kv "prefix" "f", kv "rename" "shared"]], fields := .unit },
    { ident := "Sub", attrs := [.list [kv "prefix" "f"]], fields := .unnamed 1 }]

def fieldTy : String → String
  | "name" => "String"
  | "folders" => "Vec<Folder>"
  | _ => "Kind"

def element : String → Slot
  | "Vec<Folder>" => ⟨.many, .strct 0⟩
  | "Folder" => ⟨.one, .strct 0⟩
  | "Kind" => ⟨.one, .enm 0⟩
  | _ => ⟨.one, .text .string⟩

/-- `Folder` is also the type of the payload of `Kind::Sub`. -/
def crate : Crate where
  strct _ := folder
  enm _ := kind
  fieldTy _ := fieldTy
  payloadTy _ _ := "Folder"
  means ty := {
    element := element ty
    «attribute» := (false, .string)
    flatten := 0
    text := .string
    default := .opt none }

def folderIs : MStruct where
  attr := { name := { loc := "Folder", pfx := some "f", ns := some "urn:files" }, namespaces := [("f", "urn:files")] }
  fields := [
    { ident := "name", mode := .attribute, default := false, name := { loc := "name", pfx := none, ns := none } },
    { ident := "folders", mode := .element, default := false, name := { loc := "folder", pfx := some "f", ns := some "urn:files" } },
    { ident := "kind", mode := .flatten, default := false, name := { loc := "kind", pfx := none, ns := none } }]

def kindIs : MEnum where
  attr := { name := { loc := "Kind", pfx := none, ns := none }, namespaces := [("f", "urn:files")] }
  variants := [
    { ident := "Shared", name := { loc := "shared", pfx := some "f", ns := some "urn:files" }, payload := false },
    { ident := "Sub", name := { loc := "Sub", pfx := some "f", ns := some "urn:files" }, payload := true }]
  hasSkipped := false

theorem folder_described : describe folder = .ok (some (.strct folderIs), []) := rfl

theorem kind_described : describe kind = .ok (some (.enm kindIs), []) := rfl

def env : Env where
  strct i := folderIs.toDef fun f => crate.means (crate.fieldTy i f)
  enm i := kindIs.toDef "Kind" (variantsOf kind) fun v => (crate.means (crate.payloadTy i v)).element

theorem declares : DeclaresTypes crate env where
  structs _ := ⟨folderIs, folder_described, rfl⟩
  enums _ := ⟨kindIs, kind_described, rfl⟩

def ser : SerEmitted where
  strct i := serStructCode folderIs.attr (GStruct.ofDescribed "Folder" (crate.fieldTy i) folderIs)
  enm i := serEnumCode kindIs.attr (GEnum.ofDescribed "Kind" (crate.payloadTy i) kindIs)

def folderCode : StructCode where
  visitorType := "FolderVisitor"
  attributes := [{ ns := "", loc := "name" }]
  elements := [{ ns := "urn:files", loc := "folder" }]
  defs := [("name_present", .bool), ("folders_present", .bool), ("kind_visitor", .visitor "Kind")]
  inits := [("name_present", .false), ("folders_present", .false), ("kind_visitor", .newVisitor "Kind" "kind")]
  elementArms := [
    { index := 0, guard := some "folders_present", body := [.update "folders"] },
    { index := 0, guard := none, body := [.writeInit "folders", .set "folders_present"] }]
  elementFall := .delegate ["kind_visitor"]
  attributeArms := [
    { index := 0, guard := some "name_present", body := [], tail := .duplicate },
    { index := 0, guard := none, body := [.writeInit "name", .set "name_present"], tail := .taken }]
  attributeFall := .delegate ["kind_visitor"]
  characters := some (.delegate ["kind_visitor"])
  finalize := [
    .writeIfNot "name_present" "name" (.missingAttribute "String" 0),
    .writeIfNot "folders_present" "folders" (.missingElement "Vec<Folder>" 0),
    .finalize "Kind" "kind_visitor" none]

def code : Emitted where
  strct _ := folderCode
  enm i := enumCode (GEnum.ofDescribed "Kind" (crate.payloadTy i) kindIs)

theorem folder_code : structCode (GStruct.ofDescribed "Folder" fieldTy folderIs) = .ok folderCode := rfl

theorem accepted : Accepted crate code where
  structs _ := by
    have h : deriveDeserialize fieldTy folder = .ret (some (.strct folderCode)) := by
      unfold deriveDeserialize
      rw [folder_described]
      simp only [show folder.ident = "Folder" from rfl, folder_code]
      rfl
    show derive (some folder) (deriveDeserialize fieldTy) = _
    rw [C63_derive]
    simp only [h]
    rfl
  enums _ := rfl
  fieldIdents _ := show ((fieldsOf folder).map fun f => unraw f.ident).Nodup by decide
  variantIdents _ := show ((variantsOf kind).map fun v => v.ident).Nodup by decide

theorem acceptedSer : AcceptedSer crate ser where
  structs _ := rfl
  enums _ := rfl
  fieldIdents _ := show ((fieldsOf folder).map fun f => unraw f.ident).Nodup by decide
  variantIdents _ := show ((variantsOf kind).map fun v => v.ident).Nodup by decide

theorem unskipped : Unskipped crate := by
  intro _ v hv
  simp only [variantsOf, crate, kind, List.mem_cons, List.not_mem_nil, or_false] at hv
  rcases hv with rfl | rfl <;> simp [Skipped, attrItems, kv, word]

theorem env_ok : EnvOk env where
  elems := by
    intro i p q f g s s' hf hg hk hk' hn
    rcases p with _ | _ | _ | p <;> rcases q with _ | _ | _ | q <;> simp [env, folderIs, MStruct.toDef, MField.toField] at hf hg <;>
      subst hf <;> subst hg <;> simp_all
  attrs := by
    intro i p q f g o t o' t' hf hg hk hk' hn
    rcases p with _ | _ | _ | p <;> rcases q with _ | _ | _ | q <;> simp [env, folderIs, MStruct.toDef, MField.toField] at hf hg <;>
      subst hf <;> subst hg <;> simp_all
  noText := by
    intro i f t hf hk
    simp [env, folderIs, MStruct.toDef, MField.toField] at hf
    rcases hf with rfl | rfl | rfl <;> simp at hk
  variants := by
    intro i p q v w hv hw hn
    change (env.enm 0).variants[p]? = some v at hv
    change (env.enm 0).variants[q]? = some w at hw
    rcases p with _ | _ | p <;> rcases q with _ | _ | q <;> simp_all [env, kindIs, MEnum.toDef, MEnum.variant, variantsOf, kind, MName.declared, DName.expanded] <;>
      subst hv <;> subst hw <;> simp_all
  noneFirst := by
    intro i d hd e he h1 h2
    simp [env, kindIs, MEnum.toDef, MEnum.variant, variantsOf, kind, MName.declared] at he
    rcases he with rfl | rfl <;> simp at h2
  noSkip := by
    intro i v hv
    simp [env, kindIs, MEnum.toDef, MEnum.variant, variantsOf, kind, MName.declared] at hv
    rcases hv with rfl | rfl <;> rfl

def q (loc : String) : QName := { loc := loc, ns := some "urn:files", pfx := some "f" }

def named (s : String) : List XAttr := [{ name := { loc := "name", ns := none, pfx := none }, value := s }]

def pos : Pos := ⟨0, 0⟩

/-- `<f:Folder name="a"><f:folder name="b"><f:shared/></f:folder><f:Sub name="c"><f:shared/></f:Sub></f:Folder>` -/
def doc : Doc where
  startPos := pos
  prolog := []
  root := {
    name := q "Folder", attrs := named "a", ns := [], pos := pos, endPos := pos
    children := .elem (q "folder") (named "b") [] pos (.elem (q "shared") [] [] pos .nil pos .nil) pos
      (.elem (q "Sub") (named "c") [] pos (.elem (q "shared") [] [] pos .nil pos .nil) pos .nil) }
  epilog := []
  eofPos := pos
  epilogOk := by simp

/-- `Folder { name: "a", folders: vec![Folder { name: "b", folders: vec![], kind: Shared }], kind: Sub(Folder { name: "c", .. }) }` -/
def value : Val := .strct [.text (.str "a"), .vec [.strct [.text (.str "b"), .vec [], .enm 0 none]],
  .enm 1 (some (.strct [.text (.str "c"), .vec [], .enm 0 none]))]

theorem leaf_ty (s : String) : HasTy env (.strct 0) (.strct [.text (.str s), .vec [], .enm 0 none]) := by
  refine .strct rfl ?_ ?_ ?_
  · intro p f v hf hv
    rcases p with _ | _ | _ | p <;> simp [env, folderIs, MStruct.toDef, MField.toField] at hf hv <;> subst hf <;> subst hv
    · exact ⟨_, rfl, rfl⟩
    · exact ⟨_, rfl⟩
    · trivial
  · intro p f s v w hf hv hk hw
    rcases p with _ | _ | _ | p <;> simp [env, folderIs, MStruct.toDef, MField.toField] at hf hv <;> subst hf <;> subst hv <;> simp at hk
    subst hk
    simp [crate, fieldTy, element, valuesOf] at hw
  · intro p f e v hf hv hk
    rcases p with _ | _ | _ | p <;> simp [env, folderIs, MStruct.toDef, MField.toField] at hf hv <;> subst hf <;> subst hv <;> simp at hk
    subst hk
    exact .unit rfl rfl

theorem value_ty : HasTy env (.strct 0) value := by
  refine .strct rfl ?_ ?_ ?_
  · intro p f v hf hv
    rcases p with _ | _ | _ | p <;> simp [env, folderIs, MStruct.toDef, MField.toField] at hf hv <;> subst hf <;> subst hv
    · exact ⟨_, rfl, rfl⟩
    · exact ⟨_, rfl⟩
    · trivial
  · intro p f s v w hf hv hk hw
    rcases p with _ | _ | _ | p <;> simp [env, folderIs, MStruct.toDef, MField.toField] at hf hv <;> subst hf <;> subst hv <;> simp at hk
    subst hk
    simp [crate, fieldTy, element, valuesOf] at hw
    subst hw
    exact leaf_ty "b"
  · intro p f e v hf hv hk
    rcases p with _ | _ | _ | p <;> simp [env, folderIs, MStruct.toDef, MField.toField] at hf hv <;> subst hf <;> subst hv <;> simp at hk
    subst hk
    refine .payload (w := (env.enm 0).variants[1]) (s := ⟨.one, .strct 0⟩) rfl rfl trivial fun x hx => ?_
    simp [valuesOf] at hx
    subst hx
    exact leaf_ty "c"

theorem leaf_readable (s : String) : Readable env (.strct 0) (.strct [.text (.str s), .vec [], .enm 0 none]) := by
  refine .strct rfl ?_ ?_ ?_ ?_
  · intro p f v o t hf hv hk
    rcases p with _ | _ | _ | p <;> simp [env, folderIs, MStruct.toDef, MField.toField] at hf hv <;> subst hf <;> subst hv <;> simp at hk
    obtain ⟨rfl, rfl⟩ := hk
    exact ⟨_, rfl, rfl⟩
  · intro p f s v hf hv hk
    rcases p with _ | _ | _ | p <;> simp [env, folderIs, MStruct.toDef, MField.toField] at hf hv <;> subst hf <;> subst hv <;> simp at hk
    subst hk
    exact ⟨⟨_, rfl⟩, fun _ => rfl⟩
  · intro p f s v w hf hv hk hw
    rcases p with _ | _ | _ | p <;> simp [env, folderIs, MStruct.toDef, MField.toField] at hf hv <;> subst hf <;> subst hv <;> simp at hk
    subst hk
    simp [crate, fieldTy, element, valuesOf] at hw
  · intro p f e v hf hv hk
    rcases p with _ | _ | _ | p <;> simp [env, folderIs, MStruct.toDef, MField.toField] at hf hv <;> subst hf <;> subst hv <;> simp at hk
    subst hk
    exact .unit rfl rfl

theorem value_readable : Readable env (.strct 0) value := by
  refine .strct rfl ?_ ?_ ?_ ?_
  · intro p f v o t hf hv hk
    rcases p with _ | _ | _ | p <;> simp [env, folderIs, MStruct.toDef, MField.toField] at hf hv <;> subst hf <;> subst hv <;> simp at hk
    obtain ⟨rfl, rfl⟩ := hk
    exact ⟨_, rfl, rfl⟩
  · intro p f s v hf hv hk
    rcases p with _ | _ | _ | p <;> simp [env, folderIs, MStruct.toDef, MField.toField] at hf hv <;> subst hf <;> subst hv <;> simp at hk
    subst hk
    exact ⟨⟨_, rfl⟩, by simp [crate, fieldTy, element, valuesOf]⟩
  · intro p f s v w hf hv hk hw
    rcases p with _ | _ | _ | p <;> simp [env, folderIs, MStruct.toDef, MField.toField] at hf hv <;> subst hf <;> subst hv <;> simp at hk
    subst hk
    simp [crate, fieldTy, element, valuesOf] at hw
    subst hw
    exact leaf_readable "b"
  · intro p f e v hf hv hk
    rcases p with _ | _ | _ | p <;> simp [env, folderIs, MStruct.toDef, MField.toField] at hf hv <;> subst hf <;> subst hv <;> simp at hk
    subst hk
    refine .payload (w := (env.enm 0).variants[1]) (s := ⟨.one, .strct 0⟩) rfl rfl trivial (by simp [valuesOf]) fun x hx => ?_
    simp [valuesOf] at hx
    subst hx
    exact leaf_readable "c"

theorem env_flatten : FlattenOk env where
  one := by
    intro i p q f g e e' hf hg hk hk'
    rcases p with _ | _ | _ | p <;> rcases q with _ | _ | _ | q <;> simp [env, folderIs, MStruct.toDef, MField.toField] at hf hg <;>
      subst hf <;> subst hg <;> simp_all
  apart := by
    intro i f g s e w hf hg hk hk' hw
    simp [env, folderIs, MStruct.toDef, MField.toField] at hf hg
    simp [env, kindIs, MEnum.toDef, MEnum.variant, variantsOf, kind, MName.declared] at hw
    rcases hf with rfl | rfl | rfl <;> simp at hk <;> rcases hw with rfl | rfl <;> simp [DName.expanded, MName.declared]

theorem mappings : ∀ ty, ∀ x ∈ declaredNs env ty, MayDeclare x.1 x.2 := by
  intro ty x hx
  have : x = ("f", "urn:files") := by
    cases ty <;> simp [declaredNs, env, folderIs, kindIs, MStruct.toDef, MEnum.toDef] at hx <;> exact hx
  subst this
  exact ⟨by decide, by decide, by decide⟩

theorem doc_value : bodyValue env (doc.root.body env) (.strct 0) = some value := rfl

end ExCrate

/-- The emitted code reads this document as that value. -/
example : ∃ types, ExCrate.crate.Tied ExCrate.code types ∧ ExCrate.crate.read ExCrate.code types true (.strct 0) ExCrate.doc.input = .ok (.ok ExCrate.value) := by
  obtain ⟨types, ht, _⟩ := C65_types ExCrate.crate ExCrate.code
  exact ⟨types, ht, ((C65_value ExCrate.crate ExCrate.code types ExCrate.env ExCrate.accepted ExCrate.unskipped ExCrate.declares ht ExCrate.env_ok true (.strct 0) ExCrate.doc).2 _).mpr ExCrate.doc_value⟩

section
attribute [local semireducible] writeChildren writeField writeVec writeElemFields writeFlattens

/-- It writes the value, with the declared name of the root, and reads what it wrote. -/
example : ∃ types name s, ExCrate.crate.Tied ExCrate.code types ∧ ExCrate.crate.root ExCrate.ser (.strct 0) = some name ∧
    ExCrate.crate.write ExCrate.ser true (fun _ _ => none) name (.strct 0) ExCrate.value = .ok (s, .ok ()) ∧ s.out.length = 10 ∧
    ∀ d, ReadsBack s.out d → ExCrate.crate.read ExCrate.code types true (.strct 0) d.input = .ok (.ok ExCrate.value) := by
  obtain ⟨types, ht, _⟩ := C65_types ExCrate.crate ExCrate.code
  obtain ⟨h1, h2⟩ := C65_write ExCrate.crate ExCrate.ser ExCrate.env ExCrate.acceptedSer ExCrate.declares true (fun _ _ => none)
    { ns := "urn:files", loc := "Folder" } (.strct 0) ExCrate.value ExCrate.value_ty
  have hw : ∃ s, serializeVal true (fun _ _ => none) ExCrate.env { ns := "urn:files", loc := "Folder" } (.strct 0) ExCrate.value = .ok (s, .ok ()) ∧
      s.out.length = 10 := ⟨_, rfl, rfl⟩
  obtain ⟨s, hs, hl⟩ := hw
  rw [← h1] at hs
  refine ⟨types, _, s, ht, h2, hs, hl, fun d hd => ?_⟩
  exact (C65_roundtrip ExCrate.crate ExCrate.code types ExCrate.ser ExCrate.env ExCrate.accepted ExCrate.acceptedSer ExCrate.unskipped ExCrate.declares ht
    ExCrate.env_ok ExCrate.env_flatten ExCrate.mappings true true _ (.strct 0) _ h2 (.inl fun ty => by cases ty <;> rfl) _ ExCrate.value_ty s hs d hd).mpr
    ExCrate.value_readable

example := C65_env ExCrate.crate ExCrate.code ExCrate.accepted

end

end SX
