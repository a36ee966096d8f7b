import Verif.Props.Conserve
import Verif.Proof.Marks

/-! # C113: what is written is what the value has to say, piece by piece -/
namespace SX
open Spec Marks Conserve

/-- **C113**. Whatever is written of a value without an error: its elements (with their local names), attributes (with local names and texts) and texts are
the root element and, in some order, those that the value has to say by its declarations, each exactly once.  Of declarations without text fields and
without skipped variants that have values (`C33`, `C34`). -/
theorem C113_pieces (dbg : Bool) (sink : Sink) (env : Env) (hd : AttrsDistinct env) (hnt : ∀ i, ∀ f ∈ (env.strct i).fields, ∀ t, f.kind ≠ .text t)
    (hns : ∀ i, ∀ w ∈ (env.enm i).variants, w.skip = true → w.slot = none) (ty : Ty) (v : Val) (hv : HasTy env ty v) (name : EName) (s : WState)
    (hs : serializeVal dbg sink env name ty v = .ok (s, .ok ())) : (marksOf s.out).Perm (marks env (.element name.loc) ty v) := by
  obtain ⟨as, g, hr⟩ := represents_exists hv name
  have h' : serializeTo dbg sink name (writeAttributes env ty v) (writeChildren env ty v .ret) = .ok (s, .ok ()) := hs
  obtain ⟨es, h1, h2⟩ := serializeTo_asks h'
  rw [derived_asked env hd hr] at h1
  cases h1
  have h3 := (marksInv dbg).serializeTo (AttrProg.Mappings.trivial _) (Prog.Mappings.trivial _) h'
  rw [(serializeTo_sticky h').out, marks_steps _ _ h2 h3]
  have k := shows_marks hnt hns hr (by
    intro x hx ty' w hw
    simp only [List.mem_singleton] at hx
    subst hx
    cases hw
    exact hv)
  simpa [marksE, marksE_forest, pieces, itemMarks] using k

/-- **C113**, if the destination fails: what it got are some of these pieces, each at most once, and nothing else. -/
theorem C113_cut (dbg : Bool) (sink : Sink) (env : Env) (hd : AttrsDistinct env) (hnt : ∀ i, ∀ f ∈ (env.strct i).fields, ∀ t, f.kind ≠ .text t)
    (hns : ∀ i, ∀ w ∈ (env.enm i).variants, w.skip = true → w.slot = none) (ty : Ty) (v : Val) (hv : HasTy env ty v) (name : EName) (s s' : WState)
    (r : Except SErr Unit) (hs : serializeVal dbg sink env name ty v = .ok (s, r)) (hs' : serializeVal dbg neverFails env name ty v = .ok (s', .ok ())) :
    ∃ rest, (marksOf s.out ++ rest).Perm (marks env (.element name.loc) ty v) := by
  obtain ⟨s₁, h1, h2⟩ := C67_derived dbg sink env name ty v hv s' _ hs'
  rw [hs] at h1
  simp only [Except.ok.injEq, Prod.mk.injEq] at h1
  obtain ⟨rest, h3⟩ := received_marks sink [] s'.out
  refine ⟨rest, ?_⟩
  rw [h1.1, h2, ← h3]
  exact C113_pieces dbg neverFails env hd hnt hns ty v hv name s' hs'

/-- **C113**. The code emitted for a program. -/
theorem C113_crate (c : Gen.Crate) (code : Gen.SerEmitted) (env : Env) (ha : Spec.Gen.AcceptedSer c code) (hc : Spec.Gen.DeclaresTypes c env) (dbg : Bool)
    (sink : Sink) (hd : AttrsDistinct env) (hnt : ∀ i, ∀ f ∈ (env.strct i).fields, ∀ t, f.kind ≠ .text t)
    (hns : ∀ i, ∀ w ∈ (env.enm i).variants, w.skip = true → w.slot = none) (ty : Ty) (v : Val) (hv : HasTy env ty v) (name : EName) (s : WState)
    (hs : c.write code dbg sink name ty v = .ok (s, .ok ())) : (marksOf s.out).Perm (marks env (.element name.loc) ty v) := by
  rw [(C65_write c code env ha hc dbg sink name ty v hv).1] at hs
  exact C113_pieces dbg sink env hd hnt hns ty v hv name s hs

section
attribute [local semireducible] writeChildren writeField writeVec writeElemFields writeFlattens

/-- Three folders written by emitted code: the elements, and the attributes with their names. -/
example : ∃ s, ExCrate.crate.write ExCrate.ser true (fun _ _ => none) { ns := "urn:files", loc := "Folder" } (.strct 0) ExCrate.value = .ok (s, .ok ()) ∧
    (marksOf s.out).Perm [.element "Folder", .attribute "name" (some "a"), .element "folder", .attribute "name" (some "b"), .element "shared",
      .element "Sub", .attribute "name" (some "c"), .element "shared"] := by
  have hw : ∃ s, serializeVal true (fun _ _ => none) ExCrate.env { ns := "urn:files", loc := "Folder" } (.strct 0) ExCrate.value = .ok (s, .ok ()) := ⟨_, rfl⟩
  obtain ⟨s, hs⟩ := hw
  rw [← (C65_write ExCrate.crate ExCrate.ser ExCrate.env ExCrate.acceptedSer ExCrate.declares true (fun _ _ => none) _ _ _ ExCrate.value_ty).1] at hs
  exact ⟨s, hs, C113_crate ExCrate.crate ExCrate.ser ExCrate.env ExCrate.acceptedSer ExCrate.declares true _ ExCrate.env_ok.attrs
    (fun i f hf t hk => ExCrate.env_ok.noText i f t hf hk) (fun i w hw h => by rw [ExCrate.env_ok.noSkip i w hw] at h; cases h) _ _ ExCrate.value_ty _ s hs⟩

/-- A book in a book, where texts cannot be written: two elements arrive. -/
example : ∃ s s', serializeVal true ExW.noText ExS.env { ns := "urn:d", loc := "Book" } (.strct 1) (ExS.book true [ExS.book true []]) = .ok (s, .error (.write "disk full")) ∧
    serializeVal true neverFails ExS.env { ns := "urn:d", loc := "Book" } (.strct 1) (ExS.book true [ExS.book true []]) = .ok (s', .ok ()) ∧
    marksOf s.out = [.element "Book", .element "n"] := ⟨_, _, rfl, rfl, rfl⟩

/-- A book in a book. -/
example : ∃ s, serializeVal true neverFails ExS.env { ns := "urn:d", loc := "Book" } (.strct 1) (ExS.book true [ExS.book false []]) = .ok (s, .ok ()) ∧
    marksOf s.out = [.element "Book", .element "n", .text (some "true"), .element "sub", .element "n", .text (some "false")] ∧
    marks ExS.env (.element "Book") (.strct 1) (ExS.book true [ExS.book false []]) =
      [.element "Book", .element "n", .text (some "true"), .element "sub", .element "n", .text (some "false")] := ⟨_, rfl, rfl, rfl⟩

end

end SX
