import Verif.Props.Kept
import Verif.Props.Singly
import Verif.Props.Whole

/-
C86, C65 and C45, whatever the types.
-/
namespace SX
open Spec

/-- C86, exactly, for every set of types: what is written for a value that was read has content alike to that of the document it was read from if and only if no struct in the
value has several flattened fields. -/
theorem C86_rewritten_iff (dbg dbg' : Bool) (sink : Sink) (hsink : ∀ out e, sink out e = none) (env : Env) (henv : NamesDeclared env) (hok : EnvOk env)
    (hst : TextsStable env) (hdf : DefaultsOk env) (hdc : DefaultsClear env) (ty : Ty) (hty : ∀ t, ty = .text t → Stable t) (name : EName)
    (hn : ElemNsOk (urls (declaredNs env ty)) name) (d : Doc) (hd : d.root.TextVisible) (v : Val)
    (h : readTy dbg env ty d.input = .ok (.ok v)) (hpw : NoPlainWithin env false [] [{ name, value := some (ty, v) }]) :
    ∃ s, serializeVal dbg' sink env name ty v = .ok (s, .ok ()) ∧ (∃ d', Transported s.out d') ∧
      ∀ d', Transported s.out d' → (Alike env ty d.root d'.root ↔ Singly env ty v) := by
  obtain ⟨s, h1, h2, h3⟩ := C45_reread_iff dbg dbg' dbg' sink hsink env henv hok hst hdf hdc ty hty name hn d hd v h hpw
  exact ⟨s, h1, h2, fun d' hd' => (C86_kept dbg dbg' env hok ty d d' v h).symm.trans (h3 d' hd')⟩

/-- C86, for every set of types: faithful values are told apart by what is written for them. -/
theorem C86_injective_faithful (dbg dbg' : Bool) (sink sink' : Sink) (hsink : ∀ out e, sink out e = none) (hsink' : ∀ out e, sink' out e = none) (env : Env)
    (henv : NamesDeclared env) (hok : EnvOk env) (name : EName) (ty : Ty) (hn : ElemNsOk (urls (declaredNs env ty)) name) (v v' : Val) (hv : HasTy env ty v)
    (hv' : HasTy env ty v') (hpw : NoPlainWithin env false [] [{ name, value := some (ty, v) }]) (hpw' : NoPlainWithin env false [] [{ name, value := some (ty, v') }])
    (hf : Faithful env ty v) (hf' : Faithful env ty v') :
    ∃ s s', serializeVal dbg sink env name ty v = .ok (s, .ok ()) ∧ serializeVal dbg' sink' env name ty v' = .ok (s', .ok ()) ∧
      (∀ d, Transported s.out d → Transported s'.out d → v = v') ∧ (s.out = s'.out → v = v') := by
  obtain ⟨s, h1, ⟨d, hd⟩, h3⟩ := C35_exact_partial dbg dbg sink hsink env henv hok name ty hn v hv hpw
  obtain ⟨s', h1', -, h3'⟩ := C35_exact_partial dbg' dbg sink' hsink' env henv hok name ty hn v' hv' hpw'
  have hinj : ∀ d, Transported s.out d → Transported s'.out d → v = v' := by
    intro d hd hd'
    have k := (h3 d hd).mpr hf
    rw [(h3' d hd').mpr hf'] at k
    cases k
    rfl
  exact ⟨s, s', h1, h1', hinj, fun he => hinj d hd (he ▸ hd)⟩

/-- C86, for every set of types: if no struct in the values has several flattened fields, what is written for what was read is a normal form. -/
theorem C86_normal_form_singly (dbg : Bool) (env : Env) (henv : NamesDeclared env) (hok : EnvOk env) (hst : TextsStable env) (hdf : DefaultsOk env)
    (hdc : DefaultsClear env) (ty : Ty) (hty : ∀ t, ty = .text t → Stable t) (name : EName)
    (hn : ElemNsOk (urls (declaredNs env ty)) name) (hc : NoClash env name) (d d' : Doc) (hd : d.root.TextVisible) (hd' : d'.root.TextVisible) (v v' : Val)
    (h : readTy dbg env ty d.input = .ok (.ok v)) (h' : readTy dbg env ty d'.input = .ok (.ok v')) (hs : Singly env ty v) (hs' : Singly env ty v') :
    ∃ s s', serializeVal dbg (fun _ _ => none) env name ty v = .ok (s, .ok ()) ∧ serializeVal dbg (fun _ _ => none) env name ty v' = .ok (s', .ok ()) ∧
      (s.out = s'.out ↔ Alike env ty d.root d'.root) ∧ (Transported s.out d' → s'.out = s.out) := by
  have hv := (C45_read_good dbg env hok hst hdf ty hty d hd v h).1
  have hv' := (C45_read_good dbg env hok hst hdf ty hty d' hd' v' h').1
  have hf := (SX.Singly.elem_fine hok hst hdf hdc d.root hd hty ((C18_value dbg env hok ty d v).mp h)).mpr hs
  have hf' := (SX.Singly.elem_fine hok hst hdf hdc d'.root hd' hty ((C18_value dbg env hok ty d' v').mp h')).mpr hs'
  have hpw := noPlainWithin_of henv hok hc hn hv
  obtain ⟨s, s', h1, h1', -, hinj⟩ := C86_injective_faithful dbg dbg (fun _ _ => none) (fun _ _ => none) (fun _ _ => rfl) (fun _ _ => rfl) env henv hok name ty hn v v' hv hv'
    hpw (noPlainWithin_of henv hok hc hn hv') hf hf'
  refine ⟨s, s', h1, h1', ?_, ?_⟩
  · rw [← C86_kept dbg dbg env hok ty d d' v h, h']
    constructor
    · intro he; rw [hinj he]
    · intro he
      cases he
      rw [h1] at h1'
      cases h1'
      rfl
  · intro hb
    obtain ⟨t, k1, -, k3⟩ := C35_exact_partial dbg dbg _ (fun _ _ => rfl) env henv hok name ty hn v hv hpw
    rw [h1] at k1
    cases k1
    have k := (k3 d' hb).mpr hf
    rw [h'] at k
    cases k
    rw [h1] at h1'
    cases h1'
    rfl

namespace ExSi

/-- `<S xmlns="urn:x"><a>true</a><z/><b/></S>`. -/
def doc2 : Doc :=
  { startPos := ⟨0, 0⟩, prolog := [], epilog := [], eofPos := ⟨2, 0⟩, epilogOk := by simp
    root := { name := { loc := "S", ns := some "urn:x", pfx := none }, attrs := [], ns := [("", "urn:x")], pos := ⟨1, 0⟩, endPos := ⟨1, 9⟩
              children := ExR.inX "a" (.chars "true" false ⟨1, 6⟩ .nil) (ExR.inX "z" .nil (ExR.inX "b" .nil .nil)) } }

end ExSi

/-- The two documents of C45's types are alike, and so are rewritten in the same way. -/
example : ∃ s s', serializeVal true (fun _ _ => none) ExSi.env { ns := "urn:x", loc := "S" } (.strct 0) ExSi.val = .ok (s, .ok ()) ∧
    serializeVal true (fun _ _ => none) ExSi.env { ns := "urn:x", loc := "S" } (.strct 0) ExSi.val = .ok (s', .ok ()) ∧
    (s.out = s'.out ↔ Alike ExSi.env (.strct 0) ExSi.doc.root ExSi.doc2.root) ∧ (Transported s.out ExSi.doc2 → s'.out = s.out) := by
  have hr : readTy true ExSi.env (.strct 0) ExSi.doc.input = .ok (.ok ExSi.val) := rfl
  have hr2 : readTy true ExSi.env (.strct 0) ExSi.doc2.input = .ok (.ok ExSi.val) := rfl
  have hvis : ExSi.doc.root.TextVisible := by
    simp only [Elem.TextVisible, TextVisible, ExSi.doc, ExR.inX, Forest.text]; decide
  have hvis2 : ExSi.doc2.root.TextVisible := by
    simp only [Elem.TextVisible, TextVisible, ExSi.doc2, ExR.inX, Forest.text]; decide
  have hv := (C45_read_good true ExSi.env ExSi.env_ok ExSi.env_stable ExSi.env_defaults (.strct 0) (by simp) ExSi.doc hvis _ hr).1
  have hs := SX.Singly.singly_of ExSi.env_one hv
  have hn : ElemNsOk (urls (declaredNs ExSi.env (.strct 0))) { ns := "urn:x", loc := "S" } := .inr (.inl (by simp [urls, declaredNs, ExSi.env]))
  exact C86_normal_form_singly true ExSi.env ExSi.env_declared ExSi.env_ok ExSi.env_stable ExSi.env_defaults ExSi.env_clear (.strct 0) (by simp) _ hn
    (.inr ⟨ExSi.env_named, by decide⟩) ExSi.doc ExSi.doc2 hvis hvis2 _ _ hr hr2 hs hs

/-! ### Crates -/

section
open Spec.Open SX.Gen Spec.Gen

/-- C65: what the emitted code of a crate writes for a value, with its root name, the emitted code reads back exactly if the value is faithful, whatever is flattened. -/
theorem C65_roundtrip_exact (c : Crate) (code : Emitted) (types : Types) (ser : SerEmitted) (env : Env) (ha : Accepted c code) (hs : AcceptedSer c ser)
    (hu : Unskipped c) (hd : DeclaresTypes c env) (ht : c.Tied code types) (hok : EnvOk env)
    (hm : ∀ ty, ∀ x ∈ declaredNs env ty, MayDeclare x.1 x.2) (dbg dbg' : Bool) (sink : Sink) (hsink : ∀ out e, sink out e = none) (ty : Ty) (name : EName)
    (hn : c.root ser ty = some name) (hc : (∀ ty, asksDefault env ty = false) ∨ (AllPrefixed env ∧ name.ns ≠ "")) (v : Val) (hv : HasTy env ty v) :
    ∃ s, c.write ser dbg sink name ty v = .ok (s, .ok ()) ∧ (∃ d, Transported s.out d) ∧
      ∀ d, Transported s.out d → (c.read code types dbg' ty d.input = .ok (.ok v) ↔ Faithful env ty v) := by
  have hg := (C65_generated hd).1
  obtain ⟨h1, h2⟩ := C65_write c ser env hs hd dbg sink name ty v hv
  rw [h2] at hn
  have henv := C37_names_declared env hg hm
  have hroot := C37_root_declared env hg ty name hn
  obtain ⟨s, k1, k2, k3⟩ := C35_exact_partial dbg dbg' sink hsink env henv hok name ty hroot v hv
    (noPlainWithin_of henv hok (hc.imp id fun h => ⟨allNamed_of env hg hm h.1, h.2⟩) hroot hv)
  refine ⟨s, h1.trans k1, k2, fun d hd' => ?_⟩
  rw [(C65_value c code types env ha hu hd ht hok dbg' ty d).2 v, ← C18_value dbg' env hok]
  exact k3 d hd'

/-- C45 for the emitted code of a crate: what it reads from a document it can write, and read again from that exactly if no struct in the value has several flattened fields. -/
theorem C45_crate (c : Crate) (code : Emitted) (types : Types) (ser : SerEmitted) (env : Env) (ha : Accepted c code) (hs : AcceptedSer c ser)
    (hu : Unskipped c) (hd : DeclaresTypes c env) (ht : c.Tied code types) (hok : EnvOk env)
    (hm : ∀ ty, ∀ x ∈ declaredNs env ty, MayDeclare x.1 x.2) (hst : TextsStable env) (hdf : DefaultsOk env) (hdc : DefaultsClear env)
    (dbg dbg' dbg'' : Bool) (sink : Sink) (hsink : ∀ out e, sink out e = none) (ty : Ty) (hty : ∀ t, ty = .text t → Stable t) (name : EName)
    (hn : c.root ser ty = some name) (hc : (∀ ty, asksDefault env ty = false) ∨ (AllPrefixed env ∧ name.ns ≠ "")) (d : Doc) (hvis : d.root.TextVisible) (v : Val)
    (h : c.read code types dbg ty d.input = .ok (.ok v)) :
    ∃ s, c.write ser dbg' sink name ty v = .ok (s, .ok ()) ∧ (∃ d', Transported s.out d') ∧
      ∀ d', Transported s.out d' → (c.read code types dbg'' ty d'.input = .ok (.ok v) ↔ Singly env ty v) := by
  rw [(C65_value c code types env ha hu hd ht hok dbg ty d).2 v, ← C18_value dbg env hok] at h
  have hv := (C45_read_good dbg env hok hst hdf ty hty d hvis v h).1
  obtain ⟨s, k1, k2, k3⟩ := C65_roundtrip_exact c code types ser env ha hs hu hd ht hok hm dbg' dbg'' sink hsink ty name hn hc v hv
  exact ⟨s, k1, k2, fun d' hd' => (k3 d' hd').trans (SX.Singly.elem_fine hok hst hdf hdc d.root hvis hty ((C18_value dbg env hok ty d v).mp h))⟩

/-- C65's crate: its document is read as the value, which is written, and read again from what is written. -/
example : ∃ types name s, ExCrate.crate.Tied ExCrate.code types ∧ ExCrate.crate.read ExCrate.code types true (.strct 0) ExCrate.doc.input = .ok (.ok ExCrate.value) ∧
    ExCrate.crate.write ExCrate.ser true (fun _ _ => none) name (.strct 0) ExCrate.value = .ok (s, .ok ()) ∧
    ∀ d, Transported s.out d → ExCrate.crate.read ExCrate.code types true (.strct 0) d.input = .ok (.ok ExCrate.value) := by
  obtain ⟨types, ht, _⟩ := C65_types ExCrate.crate ExCrate.code
  have hr := ((C65_value ExCrate.crate ExCrate.code types ExCrate.env ExCrate.accepted ExCrate.unskipped ExCrate.declares ht ExCrate.env_ok true (.strct 0) ExCrate.doc).2 _).mpr
    ExCrate.doc_value
  obtain ⟨-, h2⟩ := C65_write ExCrate.crate ExCrate.ser ExCrate.env ExCrate.acceptedSer ExCrate.declares true (fun _ _ => none)
    { ns := "urn:files", loc := "Folder" } (.strct 0) ExCrate.value ExCrate.value_ty
  have hst : TextsStable ExCrate.env := by
    refine ⟨fun i f s t hf hk ht => ?_, fun i f o t hf hk => ?_, fun i w s t hw hs ht => ?_⟩
    · simp [ExCrate.env, ExCrate.folderIs, MStruct.toDef, MField.toField] at hf
      rcases hf with rfl | rfl | rfl <;> simp at hk
      subst hk
      simp [ExCrate.crate, ExCrate.fieldTy, ExCrate.element] at ht
    · simp [ExCrate.env, ExCrate.folderIs, MStruct.toDef, MField.toField] at hf
      rcases hf with rfl | rfl | rfl <;> simp at hk
      obtain ⟨-, rfl⟩ := hk
      exact C45_string_stable
    · simp [ExCrate.env, ExCrate.kindIs, MEnum.toDef, MEnum.variant, variantsOf, ExCrate.kind] at hw
      rcases hw with rfl | rfl <;> simp at hs
      subst hs
      simp [ExCrate.crate, ExCrate.element] at ht
  have hnd : ∀ i, ∀ f ∈ (ExCrate.env.strct i).fields, f.default = none := by
    intro i f hf
    simp [ExCrate.env, ExCrate.folderIs, MStruct.toDef, MField.toField] at hf
    rcases hf with rfl | rfl | rfl <;> rfl
  have hdf : DefaultsOk ExCrate.env :=
    ⟨(fun i f s d hf hk hd => by rw [hnd i f hf] at hd; cases hd), fun i f o t d hf hk hd => by rw [hnd i f hf] at hd; cases hd⟩
  have hdc : DefaultsClear ExCrate.env := fun i f s d hf hk hd => by rw [hnd i f hf] at hd; cases hd
  obtain ⟨s, k1, -, k3⟩ := C45_crate ExCrate.crate ExCrate.code types ExCrate.ser ExCrate.env ExCrate.accepted ExCrate.acceptedSer ExCrate.unskipped ExCrate.declares ht
    ExCrate.env_ok ExCrate.mappings hst hdf hdc true true true (fun _ _ => none) (fun _ _ => rfl) (.strct 0) (by simp) _ h2 (.inl fun ty => by cases ty <;> rfl) ExCrate.doc
    (by simp only [Elem.TextVisible, TextVisible, ExCrate.doc, Forest.text]; decide) _ hr
  exact ⟨types, _, s, ht, hr, k1, fun d hd => (k3 d hd).mpr (SX.Singly.singly_of ExCrate.env_flatten.one ExCrate.value_ty)⟩

end

end SX
