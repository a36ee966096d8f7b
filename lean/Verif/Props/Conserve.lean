import Verif.Props.Copy
import Verif.Props.DeriveSer
import Verif.Props.Cut
import Verif.Props.Whole
import Verif.Props.Leaf
import Verif.Proof.ConservePlace

/-! # C112: writing makes up no texts and loses none -/
namespace SX
open Spec Conserve

/-- **C112**. Whatever is written of a value without an error: the texts written (values of attributes and texts of elements) are, in some order, what
the declared types make of the texts in the value, each of these exactly once.  Of declarations without text fields and without
skipped variants that have values: these are not written (`C33`, `C34`). -/
theorem C112_texts (dbg : Bool) (sink : Sink) (env : Env) (hd : AttrsDistinct env) (hnt : ∀ i, ∀ f ∈ (env.strct i).fields, ∀ t, f.kind ≠ .text t)
    (hns : ∀ i, ∀ w ∈ (env.enm i).variants, w.skip = true → w.slot = none) (ty : Ty) (v : Val) (hv : HasTy env ty v) (name : EName) (s : WState)
    (hs : serializeVal dbg sink env name ty v = .ok (s, .ok ())) : ((textsOf s.out).map some).Perm ((leaves env ty v).map fun x => x.1.toText x.2) := by
  obtain ⟨as, g, hr⟩ := represents_exists hv name
  have h' : serializeTo dbg sink name (writeAttributes env ty v) (writeChildren env ty v .ret) = .ok (s, .ok ()) := hs
  obtain ⟨es, h1, h2⟩ := serializeTo_asks h'
  rw [derived_asked env hd hr] at h1
  cases h1
  have h3 := (textsInv dbg).serializeTo (AttrProg.Mappings.trivial _) (Prog.Mappings.trivial _) h'
  rw [(serializeTo_sticky h').out, texts_steps _ _ h2 h3]
  obtain ⟨us, k1, k2⟩ := shows_texts hnt hns hr (by
    intro x hx ty' w hw
    simp only [List.mem_singleton] at hx
    subst hx
    cases hw
    exact hv)
  have k3 : us.Perm (leaves env ty v) := by simpa [itemLeaves] using k1
  have k4 : Told us (textsE (.start name as :: (g.events ++ [.stop]))) := by simpa [textsE, textsE_forest, inside] using k2
  rw [← k4]
  exact k3.map _

/-- **C112**, one text at a time: nothing is made up, and nothing is lost. -/
theorem C112_each (dbg : Bool) (sink : Sink) (env : Env) (hd : AttrsDistinct env) (hnt : ∀ i, ∀ f ∈ (env.strct i).fields, ∀ t, f.kind ≠ .text t)
    (hns : ∀ i, ∀ w ∈ (env.enm i).variants, w.skip = true → w.slot = none) (ty : Ty) (v : Val) (hv : HasTy env ty v) (name : EName) (s : WState)
    (hs : serializeVal dbg sink env name ty v = .ok (s, .ok ())) :
    (∀ x ∈ textsOf s.out, ∃ u ∈ leaves env ty v, u.1.toText u.2 = some x) ∧
    (∀ u ∈ leaves env ty v, ∃ x ∈ textsOf s.out, u.1.toText u.2 = some x) ∧ (textsOf s.out).length = (leaves env ty v).length := by
  have h := C112_texts dbg sink env hd hnt hns ty v hv name s hs
  refine ⟨fun x hx => ?_, fun u hu => ?_, by simpa using h.length_eq⟩
  · exact List.mem_map.mp (h.mem_iff.mp (List.mem_map_of_mem hx))
  · obtain ⟨x, hx, h'⟩ := List.mem_map.mp (h.mem_iff.mpr (List.mem_map_of_mem hu))
    exact ⟨x, hx, h'.symm⟩

/-- **C112**: `leaves` are the texts in a value, wherever they are in it. -/
theorem C112_leaves (env : Env) (ty : Ty) (v : Val) (hv : HasTy env ty v) (u : TVal) : (∃ t, (t, u) ∈ leaves env ty v) ↔ ∃ C, Place C ∧ v = C (.text u) := by
  refine ⟨fun ⟨t, h⟩ => leaves_place env t u ty v h, ?_⟩
  rintro ⟨C, hC, rfl⟩
  exact place_leaves hC u ty (.inl hv)

/-- **C112**, with C111: a copy of a document has no texts but what some types make of what they read in texts and attributes of the document, or of
texts in declared defaults of fields that the document has nothing for. -/
theorem C112_copy (dbg dbg' : Bool) (sink : Sink) (env : Env) (hok : EnvOk env) (hd : DefaultsTyped env) (ty : Ty) (d : Doc) (v : Val)
    (h : readTy dbg env ty d.input = .ok (.ok v)) (name : EName) (s : WState) (hs : serializeVal dbg' sink env name ty v = .ok (s, .ok ()))
    (x : String) (hx : x ∈ textsOf s.out) :
    ∃ u t, TextTy.toText t u = some x ∧ ∃ y, (y = d.root ∨ ∃ c, Around c ∧ d = d.with c y) ∧
      ((∃ t : TextTy, y.children.names = [] ∧ t.parse y.children.text = .ok u) ∨ (∃ a ∈ y.attrs, ∃ t : TextTy, t.parse a.value = .ok u) ∨
        ∃ i f D, f ∈ (env.strct i).fields ∧ f.default = some (D (.text u)) ∧ Place D ∧ NothingFor f y) := by
  have hv := C64_hasTy (C64_read dbg env hok hd ty d v h)
  obtain ⟨⟨t, u⟩, hu, ht⟩ := (C112_each dbg' sink env hok.attrs (fun i f hf t hk => hok.noText i f t hf hk)
    (fun i w hw h => by rw [hok.noSkip i w hw] at h; cases h) ty v hv name s hs).1 x hx
  obtain ⟨C, hC, rfl⟩ := leaves_place env t u ty v hu
  exact ⟨u, t, ht, C111_nothing_made_up dbg env hok ty d C hC u h⟩

/-- **C112**, if the destination fails: what it got has some of these texts, each at most once, and nothing else. -/
theorem C112_cut (dbg : Bool) (sink : Sink) (env : Env) (hd : AttrsDistinct env) (hnt : ∀ i, ∀ f ∈ (env.strct i).fields, ∀ t, f.kind ≠ .text t)
    (hns : ∀ i, ∀ w ∈ (env.enm i).variants, w.skip = true → w.slot = none) (ty : Ty) (v : Val) (hv : HasTy env ty v) (name : EName) (s s' : WState)
    (r : Except SErr Unit) (hs : serializeVal dbg sink env name ty v = .ok (s, r)) (hs' : serializeVal dbg neverFails env name ty v = .ok (s', .ok ())) :
    ∃ rest, ((textsOf s.out ++ rest).map some).Perm ((leaves env ty v).map fun x => x.1.toText x.2) := by
  obtain ⟨s₁, h1, h2⟩ := C67_derived dbg sink env name ty v hv s' _ hs'
  rw [hs] at h1
  simp only [Except.ok.injEq, Prod.mk.injEq] at h1
  obtain ⟨rest, h3⟩ := received_texts sink [] s'.out
  refine ⟨rest, ?_⟩
  rw [h1.1, h2, ← h3]
  exact C112_texts dbg neverFails env hd hnt hns ty v hv name s' hs'

/-- **C112**. The code emitted for a program. -/
theorem C112_crate (c : Gen.Crate) (code : Gen.SerEmitted) (env : Env) (ha : Spec.Gen.AcceptedSer c code) (hc : Spec.Gen.DeclaresTypes c env) (dbg : Bool)
    (sink : Sink) (hd : AttrsDistinct env) (hnt : ∀ i, ∀ f ∈ (env.strct i).fields, ∀ t, f.kind ≠ .text t)
    (hns : ∀ i, ∀ w ∈ (env.enm i).variants, w.skip = true → w.slot = none) (ty : Ty) (v : Val) (hv : HasTy env ty v) (name : EName) (s : WState)
    (hs : c.write code dbg sink name ty v = .ok (s, .ok ())) : ((textsOf s.out).map some).Perm ((leaves env ty v).map fun x => x.1.toText x.2) := by
  rw [(C65_write c code env ha hc dbg sink name ty v hv).1] at hs
  exact C112_texts dbg sink env hd hnt hns ty v hv name s hs

/-- The seven texts of the library: it is written, and so are they. -/
example : ∃ s, serializeVal true ExS.fine ExS.env ExS.libName (.strct 0) ExS.lib = .ok (s, .ok ()) ∧ (textsOf s.out).length = 7 ∧
    ((textsOf s.out).map some).Perm [some "7", some "en", some "T", some "true", some "false", some "false", some "true"] := by
  obtain ⟨as, g, h, -⟩ := C32_represented ExS.lib_ty ExS.libName
  obtain ⟨s, r, h1, -, h3⟩ := C32_document_partial true ExS.fine ExS.env ExS.env_declared ExS.env_distinct ExS.libName (.strct 0)
    (.inr (.inl (by simp [ExS.libName, urls, declaredNs, ExS.env]))) ExS.lib as g h
    (rootPlainFree_of (.inr ⟨ExS.env_named, by decide⟩) ExS.lib_ty)
  have hr := h3 fun _ _ => rfl
  subst hr
  have hnt : ∀ i, ∀ f ∈ (ExS.env.strct i).fields, ∀ t, f.kind ≠ .text t := by
    intro i f hf t
    match i with
    | 0 => simp [ExS.env, ExS.libFields] at hf; rcases hf with rfl | rfl | rfl | rfl | rfl | rfl <;> simp
    | 1 => simp [ExS.env, ExS.bookFields] at hf; rcases hf with rfl | rfl <;> simp
    | _ + 2 => simp [ExS.env] at hf
  have hns : ∀ i, ∀ w ∈ (ExS.env.enm i).variants, w.skip = true → w.slot = none := by
    intro i w hw
    match i with
    | 0 => simp [ExS.env, ExS.kinds] at hw; rcases hw with rfl | rfl | rfl <;> simp
    | _ + 1 => simp [ExS.env] at hw
  have hl : ((leaves ExS.env (.strct 0) ExS.lib).map fun x => x.1.toText x.2) =
      [some "7", some "en", some "T", some "true", some "false", some "false", some "true"] := by
    simp [ExS.lib, ExS.book, ExS.str, ExS.env, ExS.libFields, ExS.bookFields, ExS.kinds, leaves, leavesAll, leavesFields, kindTy, TextTy.toText]
  have hp := C112_texts _ _ _ ExS.env_distinct hnt hns _ _ ExS.lib_ty _ _ h1
  rw [hl] at hp
  exact ⟨s, h1, by simpa using hp.length_eq, hp⟩

section
attribute [local semireducible] writeChildren writeField writeVec writeElemFields writeFlattens

/-- Three folders written by emitted code: their three names. -/
example : ∃ s, ExCrate.crate.write ExCrate.ser true (fun _ _ => none) { ns := "urn:files", loc := "Folder" } (.strct 0) ExCrate.value = .ok (s, .ok ()) ∧
    ((textsOf s.out).map some).Perm [some "a", some "b", some "c"] := by
  have hw : ∃ s, serializeVal true (fun _ _ => none) ExCrate.env { ns := "urn:files", loc := "Folder" } (.strct 0) ExCrate.value = .ok (s, .ok ()) := ⟨_, rfl⟩
  obtain ⟨s, hs⟩ := hw
  rw [← (C65_write ExCrate.crate ExCrate.ser ExCrate.env ExCrate.acceptedSer ExCrate.declares true (fun _ _ => none) _ _ _ ExCrate.value_ty).1] at hs
  exact ⟨s, hs, C112_crate ExCrate.crate ExCrate.ser ExCrate.env ExCrate.acceptedSer ExCrate.declares true _ ExCrate.env_ok.attrs
    (fun i f hf t hk => ExCrate.env_ok.noText i f t hf hk) (fun i w hw h => by rw [ExCrate.env_ok.noSkip i w hw] at h; cases h) _ _ ExCrate.value_ty _ s hs⟩

/-- A copy with a declared default: its texts. -/
example : ∃ v s, readTy true ExR.one (.strct 3) ExC.opt.input = .ok (.ok v) ∧ serializeVal true ExS.fine ExR.one ⟨"urn:x", "Opt"⟩ (.strct 3) v = .ok (s, .ok ()) ∧
    EnvOk ExR.one ∧ DefaultsTyped ExR.one ∧ textsOf s.out ≠ [] := ⟨_, _, rfl, rfl, ExR.one_ok, ExR.one_typed, by decide⟩

/-- The text in the name of the third folder. -/
example : ∃ t, (t, .str "c") ∈ leaves ExCrate.env (.strct 0) ExCrate.value :=
  (C112_leaves ExCrate.env (.strct 0) ExCrate.value ExCrate.value_ty _).mpr
    ⟨_, .field [_, _] [] (.payload 1 (.field [] [.vec [], .enm 0 none] .here)), rfl⟩

/-- A book in a book, where texts cannot be written: none are. -/
example : ∃ s s', serializeVal true ExW.noText ExS.env { ns := "urn:d", loc := "Book" } (.strct 1) (ExS.book true [ExS.book true []]) = .ok (s, .error (.write "disk full")) ∧
    serializeVal true neverFails ExS.env { ns := "urn:d", loc := "Book" } (.strct 1) (ExS.book true [ExS.book true []]) = .ok (s', .ok ()) ∧
    textsOf s.out = [] ∧ textsOf s'.out = ["true", "true"] := ⟨_, _, rfl, rfl, rfl, rfl⟩

end

end SX
