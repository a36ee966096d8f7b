import Verif.Spec.Serializer
import Verif.Props.Expanded
import Verif.Props.KeptExact

/-
C107: options of a serializer; what was written to a string is read back from it.
-/
namespace SX
open Spec

theorem fromUTF8?_toUTF8 (s : String) : String.fromUTF8? s.toUTF8 = some s := by
  have h : s.toUTF8.IsValidUTF8 := s.isValidUTF8
  unfold String.fromUTF8?
  rw [dif_pos h]
  rfl

theorem fromUTF8?_eq {b : ByteArray} {s : String} : String.fromUTF8? b = some s ↔ b = s.toUTF8 := by
  refine ⟨fun h => ?_, fun h => by rw [h, fromUTF8?_toUTF8]⟩
  unfold String.fromUTF8? at h
  split at h
  · cases h; rfl
  · cases h

theorem configured_same (z : Serializer) (l : List Setting) : (configured z l).attrs = z.attrs ∧ (configured z l).children = z.children ∧ (configured z l).name = z.name := by
  induction l generalizing z with
  | nil => exact ⟨rfl, rfl, rfl⟩
  | cons x l ih => cases x <;> exact ih _

theorem configured_asked (z : Serializer) (l : List Setting) : Asked l ⟨z.indent, z.declaration⟩ ⟨(configured z l).indent, (configured z l).declaration⟩ := by
  induction l generalizing z with
  | nil => exact ⟨.inr ⟨by simp, rfl⟩, .inr ⟨by simp, rfl⟩⟩
  | cons x l ih =>
    cases x with
    | indent b =>
      obtain ⟨h1, h2⟩ := ih (z.performIndent b)
      refine ⟨.inl ?_, ?_⟩
      · rcases h1 with ⟨p, q, h, hq⟩ | ⟨h, he⟩
        · exact ⟨.indent b :: p, q, by rw [configured]; exact congrArg _ h, hq⟩
        · exact ⟨[], l, by rw [configured, show (configured (z.performIndent b) l).indent = b from he]; rfl, h⟩
      · rcases h2 with ⟨p, q, h, hq⟩ | ⟨h, he⟩
        · exact .inl ⟨.indent b :: p, q, by rw [configured]; exact congrArg _ h, hq⟩
        · exact .inr ⟨by simpa using h, he⟩
    | declaration b =>
      obtain ⟨h1, h2⟩ := ih (z.writeDocumentDeclaration b)
      refine ⟨?_, .inl ?_⟩
      · rcases h1 with ⟨p, q, h, hq⟩ | ⟨h, he⟩
        · exact .inl ⟨.declaration b :: p, q, by rw [configured]; exact congrArg _ h, hq⟩
        · exact .inr ⟨by simpa using h, he⟩
      · rcases h2 with ⟨p, q, h, hq⟩ | ⟨h, he⟩
        · exact ⟨.declaration b :: p, q, by rw [configured]; exact congrArg _ h, hq⟩
        · exact ⟨[], l, by rw [configured, show (configured (z.writeDocumentDeclaration b) l).declaration = b from he]; rfl, h⟩

/-- **C107**. However options are set on a serializer, the last setting of each counts, those not set are no indentation and a declaration, and nothing else of it changes: the element is
written as by a writer that was made with these options. -/
theorem C107_options (dbg : Bool) (new : NewEmitter) (attrs : AttrProg) (children : Prog [.writer false]) (name : EName) (l : List Setting) :
    ∃ cfg, Asked l ⟨false, true⟩ cfg ∧ (configured (serializeWithName attrs children name) l).to dbg new = serializeTo dbg (new cfg).sink name attrs children := by
  refine ⟨_, configured_asked (serializeWithName attrs children name) l, ?_⟩
  obtain ⟨h1, h2, h3⟩ := configured_same (serializeWithName attrs children name) l
  rw [Serializer.to, h1, h2, h3]
  rfl

/-- The last settings are determined. -/
theorem C107_asked_unique {l : List Setting} {before c c' : EmitterConfig} (h : Asked l before c) (h' : Asked l before c') : c = c' := by
  have last : ∀ (f : Bool → Setting), (∀ x y, f x = f y → x = y) → ∀ u v w : Bool, ((∃ a b, l = a ++ f u :: b ∧ ∀ x, f x ∉ b) ∨ (∀ x, f x ∉ l) ∧ u = w) →
      ((∃ a b, l = a ++ f v :: b ∧ ∀ x, f x ∉ b) ∨ (∀ x, f x ∉ l) ∧ v = w) → u = v := by
    intro f hf u v w hu hv
    rcases hu with ⟨a, b, rfl, hb⟩ | ⟨hn, rfl⟩ <;> rcases hv with ⟨a', b', he, hb'⟩ | ⟨hn', hv⟩
    · rcases List.append_eq_append_iff.mp he with ⟨t, h1, h2⟩ | ⟨t, h1, h2⟩
      · cases t with
        | nil => simp only [List.nil_append, List.cons.injEq] at h2; exact hf _ _ h2.1
        | cons y t => simp only [List.cons_append, List.cons.injEq] at h2; exact absurd (by rw [h2.2]; simp) (hb v)
      · cases t with
        | nil => simp only [List.nil_append, List.cons.injEq] at h2; exact (hf _ _ h2.1).symm
        | cons y t => simp only [List.cons_append, List.cons.injEq] at h2; exact absurd (by rw [h2.2]; simp) (hb' u)
    · exact absurd (by simp) (hn' u)
    · exact absurd (by rw [he]; simp) (hn v)
    · exact hv.symm
  obtain ⟨i, d⟩ := c
  obtain ⟨i', d'⟩ := c'
  simp only [EmitterConfig.mk.injEq]
  exact ⟨last .indent (fun _ _ h => by cases h; rfl) i i' _ h.1 h'.1, last .declaration (fun _ _ h => by cases h; rfl) d d' _ h.2 h'.2⟩

/-- **C107**. `to_string` gives a string iff `to` succeeds, for the events written, with that string's UTF-8; it fails iff `to` fails, with the same error; and otherwise it panics,
iff `to` does or what was written is not UTF-8. -/
theorem C107_string (dbg : Bool) (new : NewEmitter) (z : Serializer) :
    (∀ str, z.toString dbg new = .ok (.ok str) ↔ ∃ s, z.to dbg new = .ok (s, .ok ()) ∧ (new ⟨z.indent, z.declaration⟩).bytes s.out = str.toUTF8) ∧
    (∀ e, z.toString dbg new = .ok (.error e) ↔ ∃ s, z.to dbg new = .ok (s, .error e)) ∧
    (∀ f, z.toString dbg new = .error f ↔ z.to dbg new = .error f ∨ f = .panic ∧ ∃ s, z.to dbg new = .ok (s, .ok ()) ∧ ∀ str : String, (new ⟨z.indent, z.declaration⟩).bytes s.out ≠ str.toUTF8) := by
  unfold Serializer.toString
  rcases h : z.to dbg new with f | ⟨s, e | ⟨⟩⟩
  · simp
  · simp
  · simp only
    cases hb : String.fromUTF8? ((new ⟨z.indent, z.declaration⟩).bytes s.out) with
    | none =>
      have hn : ∀ str : String, (new ⟨z.indent, z.declaration⟩).bytes s.out ≠ str.toUTF8 := fun str hs => by rw [hs, fromUTF8?_toUTF8] at hb; cases hb
      refine ⟨fun str => ⟨fun h => (by cases h), ?_⟩, fun e => ⟨fun h => (by cases h), ?_⟩, fun f => ⟨fun h => ?_, ?_⟩⟩
      · rintro ⟨_, h1, h2⟩
        cases h1
        exact absurd h2 (hn str)
      · rintro ⟨_, h1⟩
        cases h1
      · cases h
        exact .inr ⟨rfl, s, rfl, hn⟩
      · rintro (h | ⟨rfl, -⟩)
        · cases h
        · rfl
    | some str =>
      have hs := fromUTF8?_eq.mp hb
      refine ⟨fun str' => ⟨fun h => ?_, ?_⟩, fun e => ⟨fun h => (by cases h), ?_⟩, fun f => ⟨fun h => (by cases h), ?_⟩⟩
      · cases h
        exact ⟨s, rfl, hs⟩
      · rintro ⟨_, h1, h2⟩
        cases h1
        rw [h2, fromUTF8?_toUTF8] at hb
        cases hb
        rfl
      · rintro ⟨_, h1⟩
        cases h1
      · rintro (h | ⟨-, _, h1, h2⟩)
        · cases h
        · cases h1
          exact absurd hs (h2 str)

/-- `to` for a value of a derived type, however options are set. -/
theorem configured_to (dbg : Bool) (new : NewEmitter) (env : Env) (name : EName) (ty : Ty) (v : Val) (l : List Setting) :
    let z := configured (serializerFor env name ty v) l
    z.to dbg new = serializeVal dbg (new ⟨z.indent, z.declaration⟩).sink env name ty v := by
  obtain ⟨h1, h2, h3⟩ := configured_same (serializerFor env name ty v) l
  simp only [Serializer.to, h1, h2, h3]
  rfl

/-- **C107**. A value of derived type, written to a string with any options: the string is read as that value iff the value is readable (C35), if xml-rs conveys what is written. -/
theorem C107_roundtrip (dbg dbg' : Bool) (env : Env) (henv : NamesDeclared env) (hok : EnvOk env) (hfl : FlattenOk env) (name : EName) (ty : Ty)
    (hn : ElemNsOk (urls (declaredNs env ty)) name) (v : Val) (hv : HasTy env ty v) (hpf : RootPlainFree env name ty v) (l : List Setting) (new : NewEmitter) (parse : String → Input)
    (str : String) (hs : (configured (serializerFor env name ty v) l).toString dbg new = .ok (.ok str))
    (hx : ∀ s, (configured (serializerFor env name ty v) l).to dbg new = .ok (s, .ok ()) → Conveys new parse s.out) :
    readTy dbg' env ty (parse str) = .ok (.ok v) ↔ Readable env ty v := by
  obtain ⟨s, h1, h2⟩ := ((C107_string dbg new _).1 str).mp hs
  obtain ⟨str', d, h3, h4, h5⟩ := hx s h1 ⟨(configured (serializerFor env name ty v) l).indent, (configured (serializerFor env name ty v) l).declaration⟩
  rw [h2] at h3
  have he : str = str' := by
    have := fromUTF8?_eq.mpr h3
    rw [fromUTF8?_toUTF8] at this
    cases this
    rfl
  subst he
  rw [configured_to] at h1
  obtain ⟨as, g, hr⟩ := represents_exists hv name
  obtain ⟨s', r, h1', h6, -⟩ := C32_document_partial dbg (new ⟨(configured (serializerFor env name ty v) l).indent, (configured (serializerFor env name ty v) l).declaration⟩).sink env henv
    (envOk_distinct hok) name ty hn v as g hr hpf
  rw [h1] at h1'
  cases h1'
  rw [h4]
  exact C35_roundtrip_iff dbg dbg' _ env henv hok hfl name ty hn v hv hpf s h1 d (C43_document _ d h5 (by rw [h6 rfl]; rfl))

/-- **C107**. And if nothing goes wrong in writing there is such a string for a readable value: what is written is read back, with any options. -/
theorem C107_readable (dbg dbg' : Bool) (env : Env) (henv : NamesDeclared env) (hok : EnvOk env) (hfl : FlattenOk env) (name : EName) (ty : Ty)
    (hn : ElemNsOk (urls (declaredNs env ty)) name) (v : Val) (hv : HasTy env ty v) (hpf : RootPlainFree env name ty v) (hr : Readable env ty v) (new : NewEmitter)
    (parse : String → Input) (hsink : ∀ cfg out e, (new cfg).sink out e = none)
    (hx : ∀ s, serializeVal dbg (fun _ _ => none) env name ty v = .ok (s, .ok ()) → Conveys new parse s.out) (l : List Setting) :
    ∃ str, (configured (serializerFor env name ty v) l).toString dbg new = .ok (.ok str) ∧ readTy dbg' env ty (parse str) = .ok (.ok v) := by
  have hk : ∀ cfg, (new cfg).sink = fun _ _ => none := fun cfg => by funext out e; exact hsink cfg out e
  obtain ⟨s, h1, -⟩ := C35_roundtrip_partial dbg dbg' env henv hok hfl name ty hn v hv hpf hr
  have h2 := configured_to dbg new env name ty v l
  simp only [hk, h1] at h2
  obtain ⟨str, d, h3, h4, h5⟩ := hx s h1 ⟨(configured (serializerFor env name ty v) l).indent, (configured (serializerFor env name ty v) l).declaration⟩
  have h6 := ((C107_string dbg new _).1 str).mpr ⟨s, h2, h3⟩
  refine ⟨str, h6, (C107_roundtrip dbg dbg' env henv hok hfl name ty hn v hv hpf l new parse str h6 fun s' hs' => ?_).mpr hr⟩
  rw [h2] at hs'
  cases hs'
  exact hx s h1

open Spec.Gen Gen in
/-- **C107**, for the code that is emitted for a crate: `serialize(&v)` with any options gives a string if nothing goes wrong in xml-rs, and `from_str` gives `v` for it exactly if the
value is one that documents distinguish, as they are read (C35, C65). -/
theorem C107_crate (c : Crate) (code : Emitted) (types : Types) (ser : SerEmitted) (env : Env) (ha : Accepted c code) (hs : AcceptedSer c ser) (hu : Unskipped c)
    (hd : DeclaresTypes c env) (ht : c.Tied code types) (hok : EnvOk env) (hm : ∀ ty, ∀ x ∈ declaredNs env ty, MayDeclare x.1 x.2) (dbg dbg' : Bool) (ty : Ty) (name : EName)
    (hn : c.root ser ty = some name) (hc : (∀ ty, asksDefault env ty = false) ∨ (AllPrefixed env ∧ name.ns ≠ "")) (v : Val) (hv : HasTy env ty v) (new : NewEmitter)
    (parse : String → Input) (hsink : ∀ cfg out e, (new cfg).sink out e = none)
    (hx : ∀ s, c.write ser dbg (fun _ _ => none) name ty v = .ok (s, .ok ()) → Conveys new parse s.out) (l : List Setting) :
    ∃ str, (configured (serializeWithName (c.ser ser ty v).attrs (c.ser ser ty v).children name) l).toString dbg new = .ok (.ok str) ∧
      (c.read code types dbg' ty (parse str) = .ok (.ok v) ↔ Faithful env ty v) := by
  have hk : ∀ cfg, (new cfg).sink = fun _ _ => none := fun cfg => by funext out e; exact hsink cfg out e
  obtain ⟨s, h1, -, h2⟩ := C65_roundtrip_exact c code types ser env ha hs hu hd ht hok hm dbg dbg' (fun _ _ => none) (fun _ _ => rfl) ty name hn hc v hv
  obtain ⟨cfg, -, h3⟩ := C107_options dbg new (c.ser ser ty v).attrs (c.ser ser ty v).children name l
  rw [hk] at h3
  have h4 := h3.trans h1
  obtain ⟨str, d, h5, h6, h7⟩ := hx s h1 ⟨_, _⟩
  exact ⟨str, ((C107_string dbg new _).1 str).mpr ⟨s, h4, h5⟩, by rw [h6]; exact h2 d h7⟩

/-! ### Examples -/

namespace ExR

/-- An xml-rs that knows one document only: enough to meet the hypotheses for one value. -/
def oneEmitter : NewEmitter := fun cfg => { sink := fun _ _ => none, bytes := fun _ => (if cfg.performIndent then "<lib> </lib>" else "<lib></lib>").toUTF8 }

/-- A library can be written to strings, with any options, from which it is read. -/
example : ∃ (new : NewEmitter) (parse : String → Input), ∀ l, ∃ str, (configured (serializerFor one ExS.libName (.strct 0) lib) l).toString true new = .ok (.ok str) ∧
    readTy true one (.strct 0) (parse str) = .ok (.ok lib) := by
  have hn : ElemNsOk (urls (declaredNs one (.strct 0))) ExS.libName := .inr (.inl (by simp [ExS.libName, urls, declaredNs, one, env]))
  have hpf : RootPlainFree one ExS.libName (.strct 0) lib := rootPlainFree_of (.inr ⟨one_named, by decide⟩) lib_ty
  obtain ⟨s, h1, ⟨d, hd⟩, -⟩ := C35_transported_partial true true one one_declared one_ok one_flatten ExS.libName (.strct 0) hn lib lib_ty hpf lib_readable
  refine ⟨oneEmitter, fun _ => d.input, C107_readable true true one one_declared one_ok one_flatten ExS.libName (.strct 0) hn lib lib_ty hpf lib_readable oneEmitter _ (fun _ _ _ => rfl) ?_⟩
  intro s' hs' cfg
  rw [h1] at hs'
  cases hs'
  exact ⟨_, d, rfl, rfl, hd⟩

/-- The last of several settings counts. -/
example : Asked [.indent true, .declaration false, .indent false] ⟨false, true⟩ ⟨false, false⟩ :=
  ⟨.inl ⟨[.indent true, .declaration false], [], rfl, by simp⟩, .inl ⟨[.indent true], [.indent false], rfl, by simp⟩⟩

/-- What is not UTF-8 makes `to_string` panic. -/
example (z : Serializer) (h : ∃ s, z.to true (fun _ => ⟨fun _ _ => none, fun _ => ⟨#[255]⟩⟩) = .ok (s, .ok ())) :
    z.toString true (fun _ => ⟨fun _ _ => none, fun _ => ⟨#[255]⟩⟩) = .error .panic := by
  obtain ⟨s, hs⟩ := h
  refine ((C107_string true _ z).2.2 _).mpr (.inr ⟨rfl, s, hs, fun str h => ?_⟩)
  have := fromUTF8?_eq.mpr h
  revert this
  simp only [String.fromUTF8?]
  rw [dif_neg (by rw [← ByteArray.validateUTF8_eq_true_iff]; decide)]
  intro h
  cases h

end ExR

open Spec.Gen Gen in
/-- C65's crate: its value is written to strings with any options, and read from them iff documents distinguish it. -/
example (types : Types) (ht : ExCrate.crate.Tied ExCrate.code types) : ∃ (name : EName) (new : NewEmitter) (parse : String → Input), ExCrate.crate.root ExCrate.ser (.strct 0) = some name ∧
    ∀ l, ∃ str, (configured (serializeWithName (ExCrate.crate.ser ExCrate.ser (.strct 0) ExCrate.value).attrs (ExCrate.crate.ser ExCrate.ser (.strct 0) ExCrate.value).children name)
        l).toString true new = .ok (.ok str) ∧
      (ExCrate.crate.read ExCrate.code types true (.strct 0) (parse str) = .ok (.ok ExCrate.value) ↔ Faithful ExCrate.env (.strct 0) ExCrate.value) := by
  obtain ⟨-, h2⟩ := C65_write ExCrate.crate ExCrate.ser ExCrate.env ExCrate.acceptedSer ExCrate.declares true (fun _ _ => none)
    { ns := "urn:files", loc := "Folder" } (.strct 0) ExCrate.value ExCrate.value_ty
  obtain ⟨s, h1, ⟨d, hd⟩, -⟩ := C65_roundtrip_exact ExCrate.crate ExCrate.code types ExCrate.ser ExCrate.env ExCrate.accepted ExCrate.acceptedSer ExCrate.unskipped ExCrate.declares ht
    ExCrate.env_ok ExCrate.mappings true true (fun _ _ => none) (fun _ _ => rfl) (.strct 0) _ h2 (.inl fun ty => by cases ty <;> rfl) _ ExCrate.value_ty
  refine ⟨_, ExR.oneEmitter, fun _ => d.input, h2, C107_crate ExCrate.crate ExCrate.code types ExCrate.ser ExCrate.env ExCrate.accepted ExCrate.acceptedSer ExCrate.unskipped ExCrate.declares
    ht ExCrate.env_ok ExCrate.mappings true true (.strct 0) _ h2 (.inl fun ty => by cases ty <;> rfl) _ ExCrate.value_ty ExR.oneEmitter _ (fun _ _ _ => rfl) ?_⟩
  intro s' hs' cfg
  rw [h1] at hs'
  cases hs'
  exact ⟨_, d, rfl, rfl, hd⟩

end SX
