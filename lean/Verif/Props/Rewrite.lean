import Verif.Proof.Rewrite
import Verif.Props.DeclOrder

/-
C95: what of a declaration matters.
-/
namespace SX
open Spec Spec.Open SX.Gen Spec.Gen SX.SourceOk

theorem read_iff {c : Crate} {code : Emitted} {types : Types} {env : Env} (ha : Accepted c code) (hu : Unskipped c) (hd : DeclaresTypes c env) (ht : c.Tied code types)
    (dbg : Bool) (ty : Ty) (i : Input) (r : Except Error Val) : c.read code types dbg ty i = .ok r ↔ readTy dbg env ty i = .ok r := by
  have h := C65_read c code types env ha hu hd ht dbg ty i
  cases h1 : readTy dbg env ty i <;> cases h2 : c.read code types dbg ty i <;> rw [h1, h2] at h <;>
    simp only [someOk, reduceCtorEq, Option.some.injEq, Except.ok.injEq] at h ⊢
  rw [h]

/-- C95: two crates whose declarations say the same compile to code that reads the same documents, as the same values, and fails for the others at the same place and for the
same reason, except that where several things are missing in one element another one may be named. -/
theorem C95_read (m : Places) (c c' : Crate) (ho : InOrder c) (ho' : InOrder c') (ha : Apart c) (ha' : Apart c') (hr : Rewritten m c c') :
    ∃ code types env code' types' env', (Accepted c code ∧ c.Tied code types ∧ DeclaresTypes c env) ∧ (Accepted c' code' ∧ c'.Tied code' types' ∧ DeclaresTypes c' env') ∧
      ∀ (dbg dbg' : Bool) (ty : Ty) (d : Doc),
        (∃ v v', c.read code types dbg ty d.input = .ok (.ok v) ∧ c'.read code' types' dbg' ty d.input = .ok (.ok v') ∧ SameVal m env env' ty v v') ∨
        (∃ E E', c.read code types dbg ty d.input = .ok (.error E) ∧ c'.read code' types' dbg' ty d.input = .ok (.error E') ∧ SameError E E') := by
  obtain ⟨code, hcode⟩ := (C75_accepted c).1.mpr ho
  obtain ⟨types, ht, _⟩ := C65_types c code
  obtain ⟨env, henv⟩ := C65_env c code hcode
  obtain ⟨code', hcode'⟩ := (C75_accepted c').1.mpr ho'
  obtain ⟨types', ht', _⟩ := C65_types c' code'
  obtain ⟨env', henv'⟩ := C65_env c' code' hcode'
  refine ⟨code, types, env, code', types', env', ⟨hcode, ht, henv⟩, ⟨hcode', ht', henv'⟩, fun dbg dbg' ty d => ?_⟩
  simp only [read_iff hcode ha.noSkip henv ht, read_iff hcode' ha'.noSkip henv' ht']
  exact C94_read dbg dbg' m env env' ((C75_apart henv ho.variantIdents).mpr ha) ((C75_apart henv' ho'.variantIdents).mpr ha') (Rewrite.reordered henv henv' ho ho' ha ha' hr) ty d

/-- C95: what the second one writes the first one reads: the same value, if the second would read it back. -/
theorem C95_written (m : Places) (c c' : Crate) (ho : InOrder c) (ho' : InOrder c') (ha : Apart c) (ha' : Apart c') (hr : Rewritten m c c') (hm : MapsOk c') (ty : Ty)
    (hc : NoDefault c' ∨ (AllHavePrefix c' ∧ RootHasPrefix c' ty)) :
    ∃ code types env ser' env', (Accepted c code ∧ c.Tied code types ∧ DeclaresTypes c env) ∧ (AcceptedSer c' ser' ∧ DeclaresTypes c' env') ∧
      ∀ (dbg dbg' : Bool) (sink : Sink) (name : EName) (v' : Val), (∀ out e, sink out e = none) → c'.root ser' ty = some name → HasTy env' ty v' → Faithful env' ty v' →
        ∃ s, c'.write ser' dbg sink name ty v' = .ok (s, .ok ()) ∧ (∃ d, Transported s.out d) ∧
          ∀ d, Transported s.out d → ∃ v, c.read code types dbg' ty d.input = .ok (.ok v) ∧ SameVal m env env' ty v v' := by
  obtain ⟨code, hcode⟩ := (C75_accepted c).1.mpr ho
  obtain ⟨types, ht, _⟩ := C65_types c code
  obtain ⟨env, henv⟩ := C65_env c code hcode
  obtain ⟨code', hcode'⟩ := (C75_accepted c').1.mpr ho'
  obtain ⟨ser', hser'⟩ := (C75_accepted c').2 ho'
  obtain ⟨env', henv'⟩ := C65_env c' code' hcode'
  refine ⟨code, types, env, ser', env', ⟨hcode, ht, henv⟩, ⟨hser', henv'⟩, fun dbg dbg' sink name v' hsink hn hv hf => ?_⟩
  have hok' : EnvOk env' := (C75_apart henv' ho'.variantIdents).mpr ha'
  have hg := (C65_generated henv').1
  have hmm := (C75_maps henv').mpr hm
  obtain ⟨h1, h2⟩ := C65_write c' ser' env' hser' henv' dbg sink name ty v' hv
  have hnd := C37_names_declared env' hg hmm
  have hn' := C37_root_declared env' hg ty name (h2 ▸ hn)
  have hcl : NoClash env' name := hc.imp (C75_no_default henv').mpr fun h =>
    ⟨allNamed_of env' hg hmm ((C75_prefixes henv' ho'.variantIdents ha'.noSkip).mpr h.1), root_ns hser' hm hn h.2⟩
  obtain ⟨s, h3, h4, h5⟩ := C94_written dbg dbg' sink hsink m env env' hnd ((C75_apart henv ho.variantIdents).mpr ha) hok' (Rewrite.reordered henv henv' ho ho' ha ha' hr)
    name ty hn' v' hv (noPlainWithin_of hnd hok' hcl hn' hv) hf
  rw [h1]
  refine ⟨s, h3, h4, fun d hd => ?_⟩
  obtain ⟨v, h6, h7⟩ := h5 d hd
  exact ⟨v, (read_iff hcode ha.noSkip henv ht ..).mpr h6, h7⟩

/-- C95: if the declarations are in the same order, then the same values are of the types of both, and they write the same document: the same elements, attributes and text, whatever
the prefixes. -/
theorem C95_documents (c c' : Crate) (ho : InOrder c) (ho' : InOrder c') (ha : Apart c) (ha' : Apart c') (hr : Rewritten Places.same c c') (hm : MapsOk c) (hm' : MapsOk c')
    (ty : Ty) (hc : NoDefault c ∨ (AllHavePrefix c ∧ RootHasPrefix c ty)) (hc' : NoDefault c' ∨ (AllHavePrefix c' ∧ RootHasPrefix c' ty)) :
    ∃ ser env ser' env', (AcceptedSer c ser ∧ DeclaresTypes c env) ∧ (AcceptedSer c' ser' ∧ DeclaresTypes c' env') ∧
      ∀ (dbg dbg' : Bool) (sink sink' : Sink) (name : EName) (v : Val), (∀ out e, sink out e = none) → (∀ out e, sink' out e = none) → c.root ser ty = some name →
        c'.root ser' ty = some name → HasTy env ty v →
        HasTy env' ty v ∧ ∃ s s' es, c.write ser dbg sink name ty v = .ok (s, .ok ()) ∧ c'.write ser' dbg' sink' name ty v = .ok (s', .ok ()) ∧
          resolveEvents s.out [] = some es ∧ resolveEvents s'.out [] = some es := by
  obtain ⟨code, hcode⟩ := (C75_accepted c).1.mpr ho
  obtain ⟨ser, hser⟩ := (C75_accepted c).2 ho
  obtain ⟨env, henv⟩ := C65_env c code hcode
  obtain ⟨code', hcode'⟩ := (C75_accepted c').1.mpr ho'
  obtain ⟨ser', hser'⟩ := (C75_accepted c').2 ho'
  obtain ⟨env', henv'⟩ := C65_env c' code' hcode'
  refine ⟨ser, env, ser', env', ⟨hser, henv⟩, ⟨hser', henv'⟩, fun dbg dbg' sink sink' name v hsink hsink' hn hn' hv => ?_⟩
  have hok : EnvOk env := (C75_apart henv ho.variantIdents).mpr ha
  have hok' : EnvOk env' := (C75_apart henv' ho'.variantIdents).mpr ha'
  have hs := Rewrite.seenSame_of hok hok' (Rewrite.reordered henv henv' ho ho' ha ha' hr)
  have hv' := Rewrite.hasTy_seen hs hv
  have key : ∀ {c : Crate} {ser : SerEmitted} {env : Env} (dbg : Bool) (sink : Sink) (as : List (EName × String)) (g : EForest), (∀ out e, sink out e = none) →
      InOrder c → Apart c → MapsOk c → (NoDefault c ∨ (AllHavePrefix c ∧ RootHasPrefix c ty)) → AcceptedSer c ser → DeclaresTypes c env → c.root ser ty = some name →
      HasTy env ty v → Represents env name ty v as g →
      ∃ s, c.write ser dbg sink name ty v = .ok (s, .ok ()) ∧ resolveEvents s.out [] = some (.start name as :: (g.events ++ [.stop])) := by
    intro c ser env dbg sink as g hsink ho ha hm hc hser henv hn hv hrep
    have hok : EnvOk env := (C75_apart henv ho.variantIdents).mpr ha
    have hg := (C65_generated henv).1
    have hmm := (C75_maps henv).mpr hm
    obtain ⟨h1, h2⟩ := C65_write c ser env hser henv dbg sink name ty v hv
    have hnd := C37_names_declared env hg hmm
    have hn' := C37_root_declared env hg ty name (h2 ▸ hn)
    have hcl : NoClash env name := hc.imp (C75_no_default henv).mpr fun h =>
      ⟨allNamed_of env hg hmm ((C75_prefixes henv ho.variantIdents ha.noSkip).mpr h.1), root_ns hser hm hn h.2⟩
    obtain ⟨s, r, h3, h4, h5⟩ := C32_document_partial dbg sink env hnd (envOk_distinct hok) name ty hn' v as g hrep (rootPlainFree_of hcl hv)
    have hr := h5 hsink
    subst hr
    exact ⟨s, h1.trans h3, h4 rfl⟩
  obtain ⟨as, g, hrep⟩ := represents_exists hv name
  obtain ⟨s, h1, h2⟩ := key dbg sink as g hsink ho ha hm hc hser henv hn hv hrep
  obtain ⟨s', h3, h4⟩ := key dbg' sink' as g hsink' ho' ha' hm' hc' hser' henv' hn' hv' (Rewrite.shows_seen hs hrep)
  exact ⟨hv', s, s', _, h1, h3, h2, h4⟩

/-! ### An example -/

namespace ExCrate

def otherTy : String → String
  | "title" => "String"
  | "subs" => "Vec<Folder>"
  | _ => "Kind"

abbrev renamedTy := otherTy

/-- ```
#[static_xml(namespace = "x: urn:files", prefix = "x")]
struct Folder {
    #[static_xml(flatten)] what: Kind,
    #[static_xml(rename = "folder")] #[static_xml(prefix = "x")] subs: Vec<Folder>,
    #[static_xml(rename = "name", attribute)] title: String,
}
#[static_xml(namespace = "y: urn:files")]
enum Kind { #[static_xml(prefix = "y")] Sub(Folder), #[static_xml(prefix = "y", rename = "shared")] Public }
```
This is `ExCrate.crate` with other prefixes and identifiers, in another order. -/
def otherFolder : Decl where
  ident := "Folder"
  attrs := [.list [kv "namespace" "x: urn:files", kv "prefix" "x"]]
  data := .named [
    { ident := "what", attrs := [.list [word "flatten"]] },
    { ident := "subs", attrs := [.list [kv "rename" "folder"], .list [kv "prefix" "x"]] },
    { ident := "title", attrs := [.list [kv "rename" "name", word "attribute"]] }]

def otherKind : Decl where
  ident := "Kind"
  attrs := [.list [kv "namespace" "y: urn:files"]]
  data := .enm [
    { ident := "Sub", attrs := [.list [kv "prefix" "y"]], fields := .unnamed 1 },
    { ident := "Public", attrs := [.list [kv "prefix" "y", kv "rename" "shared"]], fields := .unit }]

def other : Crate where
  strct _ := otherFolder
  enm _ := otherKind
  fieldTy _ := otherTy
  payloadTy _ _ := "Folder"
  means := crate.means

def otherFolderIs : MStruct where
  attr := { name := { loc := "Folder", pfx := some "x", ns := some "urn:files" }, namespaces := [("x", "urn:files")] }
  fields := [
    { ident := "what", mode := .flatten, default := false, name := { loc := "what", pfx := none, ns := none } },
    { ident := "subs", mode := .element, default := false, name := { loc := "folder", pfx := some "x", ns := some "urn:files" } },
    { ident := "title", mode := .attribute, default := false, name := { loc := "name", pfx := none, ns := none } }]

def otherKindIs : MEnum where
  attr := { name := { loc := "Kind", pfx := none, ns := none }, namespaces := [("y", "urn:files")] }
  variants := [
    { ident := "Sub", name := { loc := "Sub", pfx := some "y", ns := some "urn:files" }, payload := true },
    { ident := "Public", name := { loc := "shared", pfx := some "y", ns := some "urn:files" }, payload := false }]
  hasSkipped := false

theorem otherFolder_described : describe otherFolder = .ok (some (.strct otherFolderIs), []) := rfl

theorem otherKind_described : describe otherKind = .ok (some (.enm otherKindIs), []) := rfl

def otherEnv : Env where
  strct i := otherFolderIs.toDef fun f => other.means (other.fieldTy i f)
  enm i := otherKindIs.toDef "Kind" (variantsOf otherKind) fun v => (other.means (other.payloadTy i v)).element

theorem other_declares : DeclaresTypes other otherEnv where
  structs _ := ⟨otherFolderIs, otherFolder_described, rfl⟩
  enums _ := ⟨otherKindIs, otherKind_described, rfl⟩

theorem other_inOrder : InOrder other where
  structs _ := ⟨(C40_accepted_iff _ (described_reserved otherFolder_described)).mpr ⟨_, otherFolder_described⟩, described_reserved otherFolder_described, _, rfl⟩
  enums _ := ⟨(C40_accepted_iff _ (described_reserved otherKind_described)).mpr ⟨_, otherKind_described⟩, described_reserved otherKind_described, _, rfl⟩
  noText _ := show ∀ f ∈ fieldsOf otherFolder, _ by decide
  fieldIdents _ := show ((fieldsOf otherFolder).map fun f => unraw f.ident).Nodup by decide
  variantIdents _ := show ((variantsOf otherKind).map fun v => v.ident).Nodup by decide

theorem other_ok : EnvOk otherEnv where
  elems := by
    intro i p q f g s s' hf hg hk hk' hn
    rcases p with _ | _ | _ | p <;> rcases q with _ | _ | _ | q <;> simp [otherEnv, otherFolderIs, MStruct.toDef, MField.toField] at hf hg <;>
      subst hf <;> subst hg <;> simp_all
  attrs := by
    intro i p q f g o t o' t' hf hg hk hk' hn
    rcases p with _ | _ | _ | p <;> rcases q with _ | _ | _ | q <;> simp [otherEnv, otherFolderIs, MStruct.toDef, MField.toField] at hf hg <;>
      subst hf <;> subst hg <;> simp_all
  noText := by
    intro i f t hf hk
    simp [otherEnv, otherFolderIs, MStruct.toDef, MField.toField] at hf
    rcases hf with rfl | rfl | rfl <;> simp at hk
  variants := by
    intro i p q v w hv hw hn
    change (otherEnv.enm 0).variants[p]? = some v at hv
    change (otherEnv.enm 0).variants[q]? = some w at hw
    rcases p with _ | _ | p <;> rcases q with _ | _ | q <;>
      simp_all [otherEnv, otherKindIs, MEnum.toDef, MEnum.variant, variantsOf, otherKind, MName.declared, DName.expanded] <;> subst hv <;> subst hw <;> simp_all
  noneFirst := by
    intro i d hd e he h1 h2
    simp [otherEnv, otherKindIs, MEnum.toDef, MEnum.variant, variantsOf, otherKind, MName.declared] at he
    rcases he with rfl | rfl <;> simp at h2
  noSkip := by
    intro i v hv
    simp [otherEnv, otherKindIs, MEnum.toDef, MEnum.variant, variantsOf, otherKind, MName.declared] at hv
    rcases hv with rfl | rfl <;> rfl

theorem other_apart : Apart other := (C75_apart other_declares other_inOrder.variantIdents).mp other_ok

theorem other_maps : MapsOk other := (C75_maps other_declares).mp (by
  intro ty x hx
  cases ty <;> simp [declaredNs, otherEnv, otherFolderIs, otherKindIs, MStruct.toDef, MEnum.toDef] at hx <;> subst hx <;> exact ⟨by decide, by decide, by decide⟩)

theorem other_noDefault : NoDefault other := (C75_no_default other_declares).mp fun ty => by cases ty <;> rfl

/-- The same in the order of `ExCrate.crate`. -/
def renamedFolder : Decl where
  ident := "Folder"
  attrs := [.list [kv "namespace" "x: urn:files", kv "prefix" "x"]]
  data := .named [
    { ident := "title", attrs := [.list [kv "rename" "name", word "attribute"]] },
    { ident := "subs", attrs := [.list [kv "rename" "folder"], .list [kv "prefix" "x"]] },
    { ident := "what", attrs := [.list [word "flatten"]] }]

def renamedKind : Decl where
  ident := "Kind"
  attrs := [.list [kv "namespace" "y: urn:files"]]
  data := .enm [
    { ident := "Public", attrs := [.list [kv "prefix" "y", kv "rename" "shared"]], fields := .unit },
    { ident := "Sub", attrs := [.list [kv "prefix" "y"]], fields := .unnamed 1 }]

def renamed : Crate where
  strct _ := renamedFolder
  enm _ := renamedKind
  fieldTy _ := renamedTy
  payloadTy _ _ := "Folder"
  means := crate.means

def renamedFolderIs : MStruct where
  attr := { name := { loc := "Folder", pfx := some "x", ns := some "urn:files" }, namespaces := [("x", "urn:files")] }
  fields := [
    { ident := "title", mode := .attribute, default := false, name := { loc := "name", pfx := none, ns := none } },
    { ident := "subs", mode := .element, default := false, name := { loc := "folder", pfx := some "x", ns := some "urn:files" } },
    { ident := "what", mode := .flatten, default := false, name := { loc := "what", pfx := none, ns := none } }]

def renamedKindIs : MEnum where
  attr := { name := { loc := "Kind", pfx := none, ns := none }, namespaces := [("y", "urn:files")] }
  variants := [
    { ident := "Public", name := { loc := "shared", pfx := some "y", ns := some "urn:files" }, payload := false },
    { ident := "Sub", name := { loc := "Sub", pfx := some "y", ns := some "urn:files" }, payload := true }]
  hasSkipped := false

theorem renamedFolder_described : describe renamedFolder = .ok (some (.strct renamedFolderIs), []) := rfl

theorem renamedKind_described : describe renamedKind = .ok (some (.enm renamedKindIs), []) := rfl

def renamedEnv : Env where
  strct i := renamedFolderIs.toDef fun f => renamed.means (renamed.fieldTy i f)
  enm i := renamedKindIs.toDef "Kind" (variantsOf renamedKind) fun v => (renamed.means (renamed.payloadTy i v)).element

theorem renamed_declares : DeclaresTypes renamed renamedEnv where
  structs _ := ⟨renamedFolderIs, renamedFolder_described, rfl⟩
  enums _ := ⟨renamedKindIs, renamedKind_described, rfl⟩

theorem renamed_inOrder : InOrder renamed where
  structs _ := ⟨(C40_accepted_iff _ (described_reserved renamedFolder_described)).mpr ⟨_, renamedFolder_described⟩, described_reserved renamedFolder_described, _, rfl⟩
  enums _ := ⟨(C40_accepted_iff _ (described_reserved renamedKind_described)).mpr ⟨_, renamedKind_described⟩, described_reserved renamedKind_described, _, rfl⟩
  noText _ := show ∀ f ∈ fieldsOf renamedFolder, _ by decide
  fieldIdents _ := show ((fieldsOf renamedFolder).map fun f => unraw f.ident).Nodup by decide
  variantIdents _ := show ((variantsOf renamedKind).map fun v => v.ident).Nodup by decide

theorem renamed_ok : EnvOk renamedEnv where
  elems := by
    intro i p q f g s s' hf hg hk hk' hn
    rcases p with _ | _ | _ | p <;> rcases q with _ | _ | _ | q <;> simp [renamedEnv, renamedFolderIs, MStruct.toDef, MField.toField] at hf hg <;>
      subst hf <;> subst hg <;> simp_all
  attrs := by
    intro i p q f g o t o' t' hf hg hk hk' hn
    rcases p with _ | _ | _ | p <;> rcases q with _ | _ | _ | q <;> simp [renamedEnv, renamedFolderIs, MStruct.toDef, MField.toField] at hf hg <;>
      subst hf <;> subst hg <;> simp_all
  noText := by
    intro i f t hf hk
    simp [renamedEnv, renamedFolderIs, MStruct.toDef, MField.toField] at hf
    rcases hf with rfl | rfl | rfl <;> simp at hk
  variants := by
    intro i p q v w hv hw hn
    change (renamedEnv.enm 0).variants[p]? = some v at hv
    change (renamedEnv.enm 0).variants[q]? = some w at hw
    rcases p with _ | _ | p <;> rcases q with _ | _ | q <;>
      simp_all [renamedEnv, renamedKindIs, MEnum.toDef, MEnum.variant, variantsOf, renamedKind, MName.declared, DName.expanded] <;> subst hv <;> subst hw <;> simp_all
  noneFirst := by
    intro i d hd e he h1 h2
    simp [renamedEnv, renamedKindIs, MEnum.toDef, MEnum.variant, variantsOf, renamedKind, MName.declared] at he
    rcases he with rfl | rfl <;> simp at h2
  noSkip := by
    intro i v hv
    simp [renamedEnv, renamedKindIs, MEnum.toDef, MEnum.variant, variantsOf, renamedKind, MName.declared] at hv
    rcases hv with rfl | rfl <;> rfl

theorem renamed_apart : Apart renamed := (C75_apart renamed_declares renamed_inOrder.variantIdents).mp renamed_ok

theorem renamed_maps : MapsOk renamed := (C75_maps renamed_declares).mp (by
  intro ty x hx
  cases ty <;> simp [declaredNs, renamedEnv, renamedFolderIs, renamedKindIs, MStruct.toDef, MEnum.toDef] at hx <;> subst hx <;> exact ⟨by decide, by decide, by decide⟩)

theorem renamed_noDefault : NoDefault renamed := (C75_no_default renamed_declares).mp fun ty => by cases ty <;> rfl

theorem name_at {c : Crate} {env : Env} (hd : DeclaresTypes c env) {i p : Nat} {f : DField} (hf : (fieldsOf (c.strct i))[p]? = some f) {g : Field}
    (hg : (env.strct i).fields[p]? = some g) : SourceName (Maps (c.strct i)) f g.name.expanded := by
  obtain ⟨g', h1, h2⟩ := Rewrite.meant_to hd i p f hf
  rw [hg] at h1
  cases h1
  exact h2.name

theorem variantName_at {c : Crate} {env : Env} (hd : DeclaresTypes c env) (ho : InOrder c) (ha : Apart c) {i p : Nat} {v : DVariant}
    (hv : (variantsOf (c.enm i))[p]? = some v) {w : Variant} (hw : (env.enm i).variants[p]? = some w) : VariantName (Maps (c.enm i)) v w.name.expanded := by
  obtain ⟨w', h1, h2⟩ := variant_to hd ho.variantIdents i p v hv
  rw [hw] at h1
  cases h1
  exact (h2.name (ha.noSkip i v (List.mem_of_getElem? hv)) _).mpr rfl

def places : Places := ⟨fun _ p => 2 - p, fun _ p => 1 - p⟩

theorem other_rewritten : Rewritten places crate other where
  fields := by
    intro i p f' hf
    rcases p with _ | _ | _ | p
    · refine ⟨_, rfl, ?_⟩
      cases hf
      exact ⟨fun h => absurd (by decide) h, by decide, fun _ => rfl, fun _ => rfl, fun _ => rfl, fun h => absurd h (by decide)⟩
    · refine ⟨_, rfl, ?_⟩
      have := name_at other_declares hf (g := _) rfl
      cases hf
      exact ⟨fun _ => ⟨⟨"urn:files", "folder"⟩, name_at declares (i := i) (p := 1) rfl rfl, this⟩, by decide, fun _ => rfl, fun _ => rfl, fun _ => rfl,
        fun h => absurd h (by decide)⟩
    · refine ⟨_, rfl, ?_⟩
      have := name_at other_declares hf (g := _) rfl
      cases hf
      exact ⟨fun _ => ⟨⟨"", "name"⟩, name_at declares (i := i) (p := 0) rfl rfl, this⟩, by decide, fun _ => rfl, fun _ => rfl, fun _ => rfl,
        fun h => absurd h (by decide)⟩
    · cases hf
  all := by
    intro i q hq
    simp [crate, folder, other, otherFolder, fieldsOf] at hq ⊢
    exact ⟨2 - q, by omega, by simp [places]; omega⟩
  flattened := by
    intro i p q f g hf hg h1 h2 hpq
    rcases p with _ | _ | _ | p <;> rcases q with _ | _ | _ | q <;> simp [other, otherFolder, fieldsOf] at hf hg hpq <;> subst hf <;> subst hg <;>
      simp [attrItems, word, kv] at h1 h2
  idents _ := rfl
  variants := by
    intro i p v' hv
    rcases p with _ | _ | p
    · refine ⟨_, rfl, ?_⟩
      have := variantName_at other_declares other_inOrder other_apart hv (w := _) rfl
      cases hv
      exact ⟨⟨⟨"urn:files", "Sub"⟩, variantName_at declares inOrder apart (i := i) (p := 1) rfl rfl, this⟩, by decide, fun _ => rfl⟩
    · refine ⟨_, rfl, ?_⟩
      have := variantName_at other_declares other_inOrder other_apart hv (w := _) rfl
      cases hv
      exact ⟨⟨⟨"urn:files", "shared"⟩, variantName_at declares inOrder apart (i := i) (p := 0) rfl rfl, this⟩, by decide, fun _ => rfl⟩
    · cases hv
  allVariants := by
    intro i q hq
    simp [crate, kind, other, otherKind, variantsOf] at hq ⊢
    exact ⟨1 - q, by omega, by simp [places]; omega⟩

theorem renamed_rewritten : Rewritten Places.same crate renamed where
  fields := by
    intro i p f' hf
    rcases p with _ | _ | _ | p
    · refine ⟨_, rfl, ?_⟩
      have := name_at renamed_declares hf (g := _) rfl
      cases hf
      exact ⟨fun _ => ⟨⟨"", "name"⟩, name_at declares (i := i) (p := 0) rfl rfl, this⟩, by decide, fun _ => rfl, fun _ => rfl, fun _ => rfl,
        fun h => absurd h (by decide)⟩
    · refine ⟨_, rfl, ?_⟩
      have := name_at renamed_declares hf (g := _) rfl
      cases hf
      exact ⟨fun _ => ⟨⟨"urn:files", "folder"⟩, name_at declares (i := i) (p := 1) rfl rfl, this⟩, by decide, fun _ => rfl, fun _ => rfl, fun _ => rfl,
        fun h => absurd h (by decide)⟩
    · refine ⟨_, rfl, ?_⟩
      cases hf
      exact ⟨fun h => absurd (by decide) h, by decide, fun _ => rfl, fun _ => rfl, fun _ => rfl, fun h => absurd h (by decide)⟩
    · cases hf
  all := fun i q hq => ⟨q, hq, rfl⟩
  flattened := fun i p q f g _ _ _ _ h => h
  idents _ := rfl
  variants := by
    intro i p v' hv
    rcases p with _ | _ | p
    · refine ⟨_, rfl, ?_⟩
      have := variantName_at renamed_declares renamed_inOrder renamed_apart hv (w := _) rfl
      cases hv
      exact ⟨⟨⟨"urn:files", "shared"⟩, variantName_at declares inOrder apart (i := i) (p := 0) rfl rfl, this⟩, by decide, fun _ => rfl⟩
    · refine ⟨_, rfl, ?_⟩
      have := variantName_at renamed_declares renamed_inOrder renamed_apart hv (w := _) rfl
      cases hv
      exact ⟨⟨⟨"urn:files", "Sub"⟩, variantName_at declares inOrder apart (i := i) (p := 1) rfl rfl, this⟩, by decide, fun _ => rfl⟩
    · cases hv
  allVariants := fun i q hq => ⟨q, hq, rfl⟩

end ExCrate

example := C95_read ExCrate.places ExCrate.crate ExCrate.other ExCrate.inOrder ExCrate.other_inOrder ExCrate.apart ExCrate.other_apart ExCrate.other_rewritten

example := C95_written ExCrate.places ExCrate.crate ExCrate.other ExCrate.inOrder ExCrate.other_inOrder ExCrate.apart ExCrate.other_apart ExCrate.other_rewritten ExCrate.other_maps
  (.strct 0) (.inl ExCrate.other_noDefault)

example := C95_documents ExCrate.crate ExCrate.renamed ExCrate.inOrder ExCrate.renamed_inOrder ExCrate.apart ExCrate.renamed_apart ExCrate.renamed_rewritten
  ((C75_maps ExCrate.declares).mp ExCrate.mappings) ExCrate.renamed_maps (.strct 0) (.inl ((C75_no_default ExCrate.declares).mp fun ty => by cases ty <;> rfl))
  (.inl ExCrate.renamed_noDefault)

/-- So both write `ExCrate.value` as the same document. -/
example : ∃ ser ser' s s' es, AcceptedSer ExCrate.crate ser ∧ AcceptedSer ExCrate.renamed ser' ∧
    ExCrate.crate.write ser true (fun _ _ => none) ⟨"urn:files", "Folder"⟩ (.strct 0) ExCrate.value = .ok (s, .ok ()) ∧
    ExCrate.renamed.write ser' true (fun _ _ => none) ⟨"urn:files", "Folder"⟩ (.strct 0) ExCrate.value = .ok (s', .ok ()) ∧
    resolveEvents s.out [] = some es ∧ resolveEvents s'.out [] = some es := by
  obtain ⟨ser, env, ser', env', ⟨h1, h2⟩, ⟨h3, h4⟩, h⟩ := C95_documents ExCrate.crate ExCrate.renamed ExCrate.inOrder ExCrate.renamed_inOrder ExCrate.apart ExCrate.renamed_apart
    ExCrate.renamed_rewritten ((C75_maps ExCrate.declares).mp ExCrate.mappings) ExCrate.renamed_maps (.strct 0)
    (.inl ((C75_no_default ExCrate.declares).mp fun ty => by cases ty <;> rfl)) (.inl ExCrate.renamed_noDefault)
  have e1 := (C65_generated ExCrate.declares).2 env h2
  have e2 := (C65_generated ExCrate.renamed_declares).2 env' h4
  subst e1
  subst e2
  have hv' : HasTy ExCrate.renamedEnv (.strct 0) ExCrate.value := Rewrite.hasTy_seen (Rewrite.seenSame_of ExCrate.env_ok ExCrate.renamed_ok
    (Rewrite.reordered h2 h4 ExCrate.inOrder ExCrate.renamed_inOrder ExCrate.apart ExCrate.renamed_apart ExCrate.renamed_rewritten)) ExCrate.value_ty
  have r1 := (C65_write _ ser _ h1 h2 true (fun _ _ => none) ⟨"urn:files", "Folder"⟩ _ _ ExCrate.value_ty).2
  have r2 := (C65_write _ ser' _ h3 h4 true (fun _ _ => none) ⟨"urn:files", "Folder"⟩ _ _ hv').2
  obtain ⟨-, s, s', es, g1, g2, g3, g4⟩ := h true true (fun _ _ => none) (fun _ _ => none) ⟨"urn:files", "Folder"⟩ ExCrate.value (fun _ _ => rfl) (fun _ _ => rfl) (r1.trans rfl)
    (r2.trans rfl) ExCrate.value_ty
  exact ⟨ser, ser', s, s', es, h1, h3, g1, g2, g3, g4⟩

end SX
