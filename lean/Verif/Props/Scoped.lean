import Verif.Proof.Scoped
import Verif.Props.DeriveSer

/-
C31 and C32, exactly: which values can be serialized, and whose documents say what was declared.
-/
namespace SX

open Spec

/-- C31: serialization of a value of derived types panics for no writer, exactly if none of its elements in no namespace has a default namespace among
its own mappings.  (The mappings are those of C48: the element's own, and those of its parent that stay.) -/
theorem C31_panics_iff (dbg : Bool) (env : Env) (henv : NamesDeclared env) (hd : AttrsDistinct env) (name : EName) (ty : Ty)
    (hn : ElemNsOk (urls (declaredNs env ty)) name) (v : Val) (hv : HasTy env ty v) :
    (∀ sink, ∃ s r, serializeVal dbg sink env name ty v = .ok (s, r)) ↔ NoPlainDefault env [] [{ name, value := some (ty, v) }] := by
  obtain ⟨as, g, hr⟩ := represents_exists hv name
  constructor
  · intro h
    obtain ⟨s, r, hs⟩ := h fun _ _ => none
    exact (Scoped.document_accepted dbg _ (fun _ _ => rfl) henv hd hn hr hs).1
  · intro h sink
    exact Scoped.document_returns dbg sink henv hd hn hr h

/-- C31: the same with one writer where every write succeeds: if serialization does not panic there, it does not panic anywhere. -/
theorem C31_panics_accepting_iff (dbg : Bool) (sink : Sink) (hsink : ∀ out e, sink out e = none) (env : Env) (henv : NamesDeclared env)
    (hd : AttrsDistinct env) (name : EName) (ty : Ty) (hn : ElemNsOk (urls (declaredNs env ty)) name) (v : Val) (hv : HasTy env ty v) :
    (∃ s r, serializeVal dbg sink env name ty v = .ok (s, r)) ↔ NoPlainDefault env [] [{ name, value := some (ty, v) }] := by
  obtain ⟨as, g, hr⟩ := represents_exists hv name
  constructor
  · rintro ⟨s, r, hs⟩
    exact (Scoped.document_accepted dbg _ hsink henv hd hn hr hs).1
  · exact Scoped.document_returns dbg sink henv hd hn hr

/-- C32: if every write succeeds, the document of a value of derived types is written and says what was declared, exactly if none of its elements in no
namespace has a default namespace among its own mappings or those of an element around it. -/
theorem C32_document_iff (dbg : Bool) (sink : Sink) (hsink : ∀ out e, sink out e = none) (env : Env) (henv : NamesDeclared env) (hd : AttrsDistinct env)
    (name : EName) (ty : Ty) (hn : ElemNsOk (urls (declaredNs env ty)) name) (v : Val) (as : List (EName × String)) (g : EForest)
    (h : Represents env name ty v as g) :
    (∃ s, serializeVal dbg sink env name ty v = .ok (s, .ok ()) ∧ resolveEvents s.out [] = some (.start name as :: (g.events ++ [.stop]))) ↔
      NoPlainWithin env false [] [{ name, value := some (ty, v) }] := by
  have key : ∀ s, serializeVal dbg sink env name ty v = .ok (s, .ok ()) →
      (resolveEvents s.out [] = some (.start name as :: (g.events ++ [.stop])) ↔ NoPlainWithin env false [] [{ name, value := some (ty, v) }]) := by
    intro s hs
    have hM : ∀ ty, ∀ x ∈ declaredNs env ty, MappingOk dbg x.1 x.2 := fun ty x hx => ⟨(henv.mappings ty x hx).2.1, .inr (henv.mappings ty x hx).1⟩
    obtain ⟨es, h1, h2⟩ := C29_document_iff (mappings_attributes env hM ty v) (mappings_children env hM h) hs
    rw [derived_asked env hd h] at h1
    cases h1
    rw [h2, ← plainSteps_iff]
    exact (Scoped.document_accepted dbg sink hsink henv hd hn h hs).2
  constructor
  · rintro ⟨s, hs, hr⟩
    exact (key s hs).mp hr
  · intro hp
    obtain ⟨s, r, hs⟩ := Scoped.document_returns dbg sink henv hd hn h (Scoped.within_default hp)
    have := serializeTo_accepted hsink hs (derived_asked env hd h)
    subst this
    exact ⟨s, hs, (key s hs).mpr hp⟩

/-! ### Cases -/

/-- The types and the value of C32: everything in namespaces. -/
example : NoPlainWithin ExS.env false [] [{ name := ExS.libName, value := some (.strct 0, ExS.lib) }] ∧
    NoPlainDefault ExS.env [] [{ name := ExS.libName, value := some (.strct 0, ExS.lib) }] := by
  have hn : ElemNsOk (urls (declaredNs ExS.env (.strct 0))) ExS.libName := .inr (.inl (by simp [ExS.libName, urls, declaredNs, ExS.env]))
  have hp : RootPlainFree ExS.env ExS.libName (.strct 0) ExS.lib := rootPlainFree_of (.inr ⟨ExS.env_named, by decide⟩) ExS.lib_ty
  obtain ⟨as, g, h, -⟩ := C32_represented ExS.lib_ty ExS.libName
  obtain ⟨s, r, h1, h2, h3⟩ := C32_document_partial true ExS.fine ExS.env ExS.env_declared ExS.env_distinct ExS.libName (.strct 0) hn ExS.lib as g h hp
  cases h3 fun _ _ => rfl
  have := (C32_document_iff true ExS.fine (fun _ _ => rfl) ExS.env ExS.env_declared ExS.env_distinct ExS.libName (.strct 0) hn ExS.lib as g h).mp
    ⟨s, h1, h2 rfl⟩
  exact ⟨this, Scoped.within_default this⟩

namespace ExS

theorem bad_declared : NamesDeclared bad where
  mappings := by
    intro ty x hx
    cases ty with
    | text t => simp [declaredNs] at hx
    | strct i =>
      simp only [declaredNs, bad] at hx
      split at hx <;> simp only [List.mem_cons, List.not_mem_nil, or_false] at hx <;> subst hx <;> exact ⟨by decide, by decide, by decide⟩
    | enm i => simp [declaredNs, bad] at hx
  elems := by
    intro i f s hf hk
    simp only [bad] at hf ⊢
    split at hf <;> simp only [List.mem_cons, List.not_mem_nil, or_false] at hf <;> rcases hf with rfl | rfl <;>
      simp [nd, nn, DName.expanded, ElemNsOk, urls] at hk ⊢
  attrs := by
    intro i f o t hf hk
    simp only [bad] at hf ⊢
    split at hf <;> simp only [List.mem_cons, List.not_mem_nil, or_false] at hf <;> rcases hf with rfl | rfl <;>
      simp [nd, nn, DName.expanded, urls] at hk ⊢
  variants := by
    intro i w hw
    simp [bad] at hw

theorem bad_distinct : AttrsDistinct bad := by
  intro i p q f g o o' t t' hf hg hkf hkg _
  simp only [bad] at hf hg
  split at hf
  · rcases p with _ | _ | p <;> simp at hf <;> subst hf <;> simp at hkf
  · rcases p with _ | _ | p <;> rcases q with _ | _ | q <;> simp at hf hg <;> subst hf <;> subst hg <;> simp at hkf hkg ⊢

end ExS

section
attribute [local semireducible] writeChildren writeField writeVec writeElemFields writeFlattens natDigits

/-- A value on both sides: `leaf` is in no namespace, below the element `mid`, for which the prefix `p` replaced the default namespace of `R`. -/
example : let v := ExS.badVal none [.strct [ExS.str "t", ExS.str "v"]]
    let name : EName := { ns := "urn:d", loc := "R" }
    NoPlainDefault ExS.bad [] [{ name, value := some (.strct 0, v) }] ∧ ¬ NoPlainWithin ExS.bad false [] [{ name, value := some (.strct 0, v) }] := by
  intro v name
  have hn : ElemNsOk (urls (declaredNs ExS.bad (.strct 0))) name := .inr (.inl (by simp [name, urls, declaredNs, ExS.bad]))
  have hr : Represents ExS.bad name (.strct 0) v _ _ := .strct (.strct (.text rfl .nil) .nil) .nil
  refine ⟨(Scoped.document_accepted true ExS.fine (fun _ _ => rfl) ExS.bad_declared ExS.bad_distinct hn hr rfl).1, ?_⟩
  rw [← C32_document_iff true ExS.fine (fun _ _ => rfl) ExS.bad ExS.bad_declared ExS.bad_distinct name (.strct 0) hn v _ _ hr]
  rintro ⟨s, h1, h2⟩
  cases h1
  revert h2
  decide

/-- And one that panics: `x` is in no namespace, and `R` has a default namespace. -/
example : let v := ExS.badVal (some (ExS.str "t")) []
    let name : EName := { ns := "urn:d", loc := "R" }
    ¬ NoPlainDefault ExS.bad [] [{ name, value := some (.strct 0, v) }] := by
  intro v name
  have hn : ElemNsOk (urls (declaredNs ExS.bad (.strct 0))) name := .inr (.inl (by simp [name, urls, declaredNs, ExS.bad]))
  rw [← C31_panics_accepting_iff true ExS.fine (fun _ _ => rfl) ExS.bad ExS.bad_declared ExS.bad_distinct name (.strct 0) hn v
    C31_no_namespace_counterexample.1]
  rintro ⟨s, r, h⟩
  rw [C31_no_namespace_counterexample.2] at h
  cases h

/-- For the types and the value of C32. -/
example := C31_panics_iff true ExS.env ExS.env_declared ExS.env_distinct ExS.libName (.strct 0)
  (.inr (.inl (by simp [ExS.libName, urls, declaredNs, ExS.env]))) ExS.lib ExS.lib_ty

end

end SX
