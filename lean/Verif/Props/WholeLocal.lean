import Verif.Props.LocalErr
import Verif.Props.LocalCopy
import Verif.Props.SourceOk
import Verif.Props.Markup

/-
C104: the emitted code of a crate: changes, errors and copies are local.
-/
namespace SX
open Spec Spec.Open SX.Gen Spec.Gen SX.SourceOk

/-- On documents, the emitted code returns what Part II says, errors included. -/
theorem whole_read {c : Crate} {code : Emitted} {types : Types} {env : Env} (ha : Accepted c code) (hu : Unskipped c) (hd : DeclaresTypes c env) (ht : c.Tied code types)
    (dbg : Bool) (ty : Ty) (i : Input) (r : Except Error Val) : c.read code types dbg ty i = .ok r ↔ readTy dbg env ty i = .ok r := by
  have h := C65_read c code types env ha hu hd ht dbg ty i
  cases h1 : readTy dbg env ty i <;> cases h2 : c.read code types dbg ty i <;> rw [h1, h2] at h <;> simp only [someOk, reduceCtorEq, Option.some.injEq, Except.ok.injEq] at h ⊢
  rw [h]

/-- **C104**, for what is read: C101 for the code that is emitted for a crate. -/
theorem C104_read (c : Crate) (ho : InOrder c) (hap : Apart c) (code : Emitted) (types : Types) (ha : Accepted c code) (ht : c.Tied code types) (dbg : Bool) (ty : Ty) (d : Doc)
    (f : Elem → Forest) (hf : Around f) (n : EName) :
    (∀ x y : Elem, x.name.expanded = n → y.name.expanded = n → ∀ v, c.read code types dbg ty (d.with f x).input = .ok (.ok v) ↔ c.read code types dbg ty (d.with f y).input = .ok (.ok v)) ∨
    ∃ ty' C, Place C ∧ ∀ x : Elem, x.name.expanded = n → ∀ v, c.read code types dbg ty (d.with f x).input = .ok (.ok v) ↔
      ∃ w, c.read code types dbg ty' ({ d with root := x } : Doc).input = .ok (.ok w) ∧ v = C w := by
  obtain ⟨env, hd⟩ := C65_env c code ha
  simp only [whole_read ha hap.noSkip hd ht]
  exact C101_place dbg env ((C75_apart hd ho.variantIdents).mpr hap) ty d f hf n

/-- **C104**, for errors: C103 for the code that is emitted for a crate. -/
theorem C104_error (c : Crate) (ho : InOrder c) (hap : Apart c) (code : Emitted) (types : Types) (ha : Accepted c code) (ht : c.Tied code types) (dbg : Bool) (ty : Ty) (d : Doc)
    (path : List StackElem) (f : Elem → Forest) (hf : Within path f) (nd : StackElem) :
    (∀ x y : Elem, x.At nd → y.At nd → ∀ E, c.read code types dbg ty (d.with f x).input = .ok (.error E) ↔ c.read code types dbg ty (d.with f y).input = .ok (.error E)) ∨
    ∃ (ty' : Ty) (other : Option Error), ∀ x : Elem, x.At nd → ∀ E, c.read code types dbg ty (d.with f x).input = .ok (.error E) ↔
      (∃ E', c.read code types dbg ty' ({ d with root := x } : Doc).input = .ok (.error E') ∧ E = Error.below (⟨d.root.name, d.root.pos⟩ :: path) E') ∨
      ((∃ w, c.read code types dbg ty' ({ d with root := x } : Doc).input = .ok (.ok w)) ∧ other = some E) := by
  obtain ⟨env, hd⟩ := C65_env c code ha
  simp only [whole_read ha hap.noSkip hd ht]
  exact C103_error dbg env ((C75_apart hd ho.variantIdents).mpr hap) ty d path f hf nd

/-- **C104**, for copies: documents that differ in one element are read and written again; the copies are the same, or they differ in one element. -/
theorem C104_copies (c : Crate) (ho : InOrder c) (hap : Apart c) (code : Emitted) (types : Types) (ser : SerEmitted) (ha : Accepted c code) (ht : c.Tied code types)
    (hser : AcceptedSer c ser) (hdt : ∀ env, DeclaresTypes c env → DefaultsTyped env) (dbg dbg' : Bool) (sink sink' : Sink) (ty : Ty) (d : Doc) (f : Elem → Forest) (hf : Around f) (name : EName) (x y : Elem)
    (hn : x.name.expanded = y.name.expanded) (v v' : Val) (s s' : WState) (hx : c.read code types dbg ty (d.with f x).input = .ok (.ok v))
    (hy : c.read code types dbg ty (d.with f y).input = .ok (.ok v')) (hs : c.write ser dbg' sink name ty v = .ok (s, .ok ()))
    (hs' : c.write ser dbg' sink' name ty v' = .ok (s', .ok ())) :
    s.out = s'.out ∨
    ∃ ty' w w' A q as ns g q' as' ns' g' D, c.read code types dbg ty' ({ d with root := x } : Doc).input = .ok (.ok w) ∧
      c.read code types dbg ty' ({ d with root := y } : Doc).input = .ok (.ok w') ∧ A ≠ [] ∧ D ≠ [] ∧ s.out = A ++ documentEvents q as ns g ++ D ∧ s'.out = A ++ documentEvents q' as' ns' g' ++ D := by
  obtain ⟨env, hd⟩ := C65_env c code ha
  have hok := (C75_apart hd ho.variantIdents).mpr hap
  have hdt := hdt env hd
  rw [whole_read ha hap.noSkip hd ht] at hx hy
  rw [(C65_write c ser env hser hd dbg' sink name ty v (C64_hasTy (C64_read dbg env hok hdt ty _ v hx))).1] at hs
  rw [(C65_write c ser env hser hd dbg' sink' name ty v' (C64_hasTy (C64_read dbg env hok hdt ty _ v' hy))).1] at hs'
  simp only [whole_read ha hap.noSkip hd ht]
  rcases C102_copies dbg dbg' sink sink' env hok ty d f hf name x y hn v v' s s' hx hy hs hs' with h | ⟨ty', w, w', m, A, q, as, ns, g, q', as', ns', g', D, k1, k2, -, -, k3, k4, k5, k6⟩
  · exact .inl h
  · exact .inr ⟨ty', w, w', A, q, as, ns, g, q', as', ns', g', D, k1, k2, k3, k4, k5, k6⟩

/-- **C104**, for the markup of copies: C100 for the code that is emitted for a crate and values it has read. -/
theorem C104_markup (c : Crate) (ho : InOrder c) (hap : Apart c) (code : Emitted) (types : Types) (ser : SerEmitted) (ha : Accepted c code) (ht : c.Tied code types)
    (hser : AcceptedSer c ser) (hdt : ∀ env, DeclaresTypes c env → DefaultsTyped env) (dbg dbg' : Bool) (sink sink' : Sink) (hk : SameSinks sink sink') (ty : Ty) (d d' : Doc)
    (name : EName) (v v' : Val) (hx : c.read code types dbg ty d.input = .ok (.ok v)) (hy : c.read code types dbg ty d'.input = .ok (.ok v')) (hb : Spec.bare v = Spec.bare v') :
    SameMarkup (c.write ser dbg' sink name ty v) (c.write ser dbg' sink' name ty v') := by
  obtain ⟨env, hd⟩ := C65_env c code ha
  have hok := (C75_apart hd ho.variantIdents).mpr hap
  have hdt := hdt env hd
  rw [whole_read ha hap.noSkip hd ht] at hx hy
  have h1 := C64_read dbg env hok hdt ty _ v hx
  have h2 := C64_read dbg env hok hdt ty _ v' hy
  rw [(C65_write c ser env hser hd dbg' sink name ty v (C64_hasTy h1)).1, (C65_write c ser env hser hd dbg' sink' name ty v' (C64_hasTy h2)).1]
  exact C100_values dbg' sink sink' hk env name ty v v' h1 h2 hb

/-! ### An example -/

namespace ExCrate

/-- `<f:Folder name="a"><f:folder name="b">…</f:folder><f:shared/></f:Folder>`, open for an element in the inner folder. -/
def around (x : Elem) : Forest :=
  .elem (q "folder") (named "b") [] pos (.elem (q "shared") [] [] pos .nil pos (.elem x.name x.attrs x.ns x.pos x.children x.endPos .nil)) pos (.elem (q "shared") [] [] pos .nil pos .nil)

theorem around_in : Within [⟨q "folder", pos⟩] around := .inside _ _ _ _ _ _ (.elem _ _ _ _ _ _ (.here _))

theorem around_ok : Around around := .inside _ _ _ _ _ _ (.elem _ _ _ _ _ _ (.here _))

/-- A folder with these attributes. -/
def inner (as : List XAttr) : Elem := { name := q "folder", attrs := as, ns := [], pos := pos, children := .elem (q "shared") [] [] pos .nil pos .nil, endPos := pos }

/-- The innermost folder has no name: the error is its own, below the two others. -/
example (types : Types) (ht : crate.Tied code types) :
    ∃ E E', crate.read code types true (.strct 0) (doc.with around (inner [])).input = .ok (.error E) ∧
      crate.read code types true (.strct 0) ({ doc with root := inner [] } : Doc).input = .ok (.error E') ∧ E = Error.below [⟨q "Folder", pos⟩, ⟨q "folder", pos⟩] E' ∧
      E'.kind = .deserializer (.missingAttribute ⟨"", "name"⟩) := by
  simp only [whole_read accepted unskipped declares ht]
  exact ⟨_, _, rfl, rfl, rfl, rfl⟩

example (types : Types) (ht : crate.Tied code types) :=
  C104_error crate inOrder apart code types accepted ht true (.strct 0) doc _ around around_in ⟨q "folder", pos⟩

/-- The value with the name `s` in the innermost folder. -/
def nested (s : String) : Val :=
  .strct [.text (.str "a"), .vec [.strct [.text (.str "b"), .vec [.strct [.text (.str s), .vec [], .enm 0 none]], .enm 0 none]], .enm 0 none]

theorem read_inner (types : Types) (ht : crate.Tied code types) (s : String) (hs : s = "c" ∨ s = "d") :
    crate.read code types true (.strct 0) (doc.with around (inner (named s))).input = .ok (.ok (nested s)) := by
  rw [whole_read accepted unskipped declares ht]
  rcases hs with rfl | rfl <;> rfl

/-- Its name is at one place of the value. -/
example (types : Types) (ht : crate.Tied code types) : ∃ (ty' : Ty) (C : Val → Val) (w : Val), Place C ∧
    crate.read code types true ty' ({ doc with root := inner (named "c") } : Doc).input = .ok (.ok w) ∧
    C w = nested "c" := by
  have hr := read_inner types ht
  rcases C104_read crate inOrder apart code types accepted ht true (.strct 0) doc around around_ok (q "folder").expanded with h | ⟨ty', C, hC, h⟩
  · have := (hr "d" (.inr rfl)).symm.trans ((h (inner (named "c")) (inner (named "d")) rfl rfl _).mp (hr "c" (.inl rfl)))
    simp [nested] at this
  · obtain ⟨w, h1, h2⟩ := (h (inner (named "c")) rfl _).mp (hr "c" (.inl rfl))
    exact ⟨ty', C, w, hC, h1, h2.symm⟩

theorem defaults : ∀ env', DeclaresTypes crate env' → DefaultsTyped env' := by
  intro env' h
  rw [(C65_generated declares).2 env' h]
  refine ⟨fun i f s d hf hk hd => ?_, fun i f o t d hf hk hd => ?_⟩ <;> simp [env, folderIs, MStruct.toDef, MField.toField] at hf <;>
    rcases hf with rfl | rfl | rfl <;> simp at hd

example (types : Types) (ht : crate.Tied code types) : SameMarkup (crate.write ser true (fun _ _ => none) ⟨"urn:files", "Folder"⟩ (.strct 0) (nested "c"))
    (crate.write ser true (fun _ _ => none) ⟨"urn:files", "Folder"⟩ (.strct 0) (nested "d")) :=
  C104_markup crate inOrder apart code types ser accepted ht acceptedSer defaults true true _ _ (fun _ _ _ _ _ _ => rfl) (.strct 0) _ _ _ _ _
    (read_inner types ht "c" (.inl rfl)) (read_inner types ht "d" (.inr rfl)) (by simp [nested, Spec.bare, bareAll, bareOpt])

section
attribute [local semireducible] writeChildren writeField writeVec writeElemFields writeFlattens

/-- Two documents that differ in that name, and what is written for them. -/
example (types : Types) (ht : crate.Tied code types) : ∃ v v' s s', crate.read code types true (.strct 0) (doc.with around (inner (named "c"))).input = .ok (.ok v) ∧
    crate.read code types true (.strct 0) (doc.with around (inner (named "d"))).input = .ok (.ok v') ∧
    crate.write ser true (fun _ _ => none) ⟨"urn:files", "Folder"⟩ (.strct 0) v = .ok (s, .ok ()) ∧
    crate.write ser true (fun _ _ => none) ⟨"urn:files", "Folder"⟩ (.strct 0) v' = .ok (s', .ok ()) ∧ s.out ≠ s'.out ∧
    ∃ A q as ns g q' as' ns' g' D, A ≠ [] ∧ D ≠ [] ∧ s.out = A ++ documentEvents q as ns g ++ D ∧ s'.out = A ++ documentEvents q' as' ns' g' ++ D := by
  have hr := read_inner types ht
  have hw : ∀ n, n = "c" ∨ n = "d" → ∃ s, crate.write ser true (fun _ _ => none) ⟨"urn:files", "Folder"⟩ (.strct 0) (nested n) = .ok (s, .ok ()) ∧
      (∃ e, s.out[2]? = some e ∧ ∃ q ns, e = .start q [(⟨none, "name"⟩, n)] ns) := fun n hn => by
    have ht := C64_hasTy (C64_read true env env_ok (defaults env declares) (.strct 0) _ _ ((whole_read accepted unskipped declares ht _ _ _ _).mp (hr n hn)))
    rw [(C65_write crate ser env acceptedSer declares true _ _ (.strct 0) _ ht).1]
    rcases hn with rfl | rfl
    · exact ⟨_, rfl, _, rfl, _, _, rfl⟩
    · exact ⟨_, rfl, _, rfl, _, _, rfl⟩
  obtain ⟨s, h1, e1, h2, q1, n1, rfl⟩ := hw "c" (.inl rfl)
  obtain ⟨s', h3, e2, h4, q2, n2, rfl⟩ := hw "d" (.inr rfl)
  have hne : s.out ≠ s'.out := fun h => by
    rw [h, h4] at h2
    simp at h2
  refine ⟨_, _, s, s', hr "c" (.inl rfl), hr "d" (.inr rfl), h1, h3, hne, ?_⟩
  rcases C104_copies crate inOrder apart code types ser accepted ht acceptedSer defaults true true _ _ (.strct 0) doc around around_ok _ (inner (named "c")) (inner (named "d")) rfl
    _ _ s s' (hr "c" (.inl rfl)) (hr "d" (.inr rfl)) h1 h3 with h | ⟨_, _, _, A, q, as, ns, g, q', as', ns', g', D, -, -, h⟩
  · exact absurd h hne
  · exact ⟨A, q, as, ns, g, q', as', ns', g', D, h⟩

end

end ExCrate

end SX
