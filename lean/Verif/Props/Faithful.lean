import Verif.Proof.Faithful
import Verif.Props.Expanded
import Verif.Props.Scoped

/-
C35, whatever the types.
-/
namespace SX
open Spec

/-- C35, exactly, for every set of types: a value whose document says what was declared (C32_document_iff) is written, xml-rs can transport what was
written, and it is read back if and only if it is faithful: its texts and absent fields are read as what they are, its variants have elements, and
no struct in it has several flattened fields or a flattened variant with the name of an element field. -/
theorem C35_exact_partial (dbg dbg' : Bool) (sink : Sink) (hsink : ∀ out e, sink out e = none) (env : Env) (henv : NamesDeclared env) (hok : EnvOk env)
    (name : EName) (ty : Ty) (hn : ElemNsOk (urls (declaredNs env ty)) name) (v : Val) (hv : HasTy env ty v)
    (hpw : NoPlainWithin env false [] [{ name, value := some (ty, v) }]) :
    ∃ s, serializeVal dbg sink env name ty v = .ok (s, .ok ()) ∧ (∃ d, Transported s.out d) ∧
      ∀ d, Transported s.out d → (readTy dbg' env ty d.input = .ok (.ok v) ↔ Faithful env ty v) := by
  obtain ⟨as, g, h⟩ := represents_exists hv name
  obtain ⟨s, h1, h2⟩ := (C32_document_iff dbg sink hsink env henv (envOk_distinct hok) name ty hn v as g h).mpr hpw
  refine ⟨s, h1, C43_transportable h2, fun d hd => ?_⟩
  obtain ⟨-, ha, hc⟩ := readsBack_content h2 (C43_document _ d hd (by rw [h2]; rfl))
  rw [C18_value dbg' env hok]
  exact Faith.root_value_iff hok h hv d.root ha hc

/-- C35: in particular the code never reads back what it wrote for a struct with two flattened fields (whatever their variants are called), or for one
whose flattened variant has the name of an element field. -/
theorem C35_flattened_never (dbg dbg' : Bool) (sink : Sink) (hsink : ∀ out e, sink out e = none) (env : Env) (henv : NamesDeclared env) (hok : EnvOk env)
    (name : EName) (i : Nat) (hn : ElemNsOk (urls (declaredNs env (.strct i))) name) (vs : List Val) (hv : HasTy env (.strct i) (.strct vs))
    (hpw : NoPlainWithin env false [] [{ name, value := some (.strct i, .strct vs) }])
    (hbad : (∃ (p q : Nat) (f g : Field) (e e' : Nat), p ≠ q ∧ (env.strct i).fields[p]? = some f ∧ (env.strct i).fields[q]? = some g ∧
        f.kind = .flatten e ∧ g.kind = .flatten e') ∨
      ∃ (p : Nat) (f : Field) (e j : Nat) (o : Option Val) (w : Variant) (g : Field) (s : Slot), (env.strct i).fields[p]? = some f ∧ f.kind = .flatten e ∧
        vs[p]? = some (.enm j o) ∧ (env.enm e).variants[j]? = some w ∧ g ∈ (env.strct i).fields ∧ g.kind = .element s ∧ g.name.expanded = w.name.expanded) :
    ∃ s, serializeVal dbg sink env name (.strct i) (.strct vs) = .ok (s, .ok ()) ∧ (∃ d, Transported s.out d) ∧
      ∀ d, Transported s.out d → readTy dbg' env (.strct i) d.input ≠ .ok (.ok (.strct vs)) := by
  obtain ⟨s, h1, h2, h3⟩ := C35_exact_partial dbg dbg' sink hsink env henv hok name _ hn _ hv hpw
  refine ⟨s, h1, h2, fun d hd hr => ?_⟩
  cases (h3 d hd).mp hr with
  | strct _ _ _ _ _ clear =>
    rcases hbad with ⟨p, q, f, g, e, e', hne, hf, hg, hk, hk'⟩ | ⟨p, f, e, j, o, w, g, s, hf, hk, hvp, hw, hg, hs, hgn⟩
    · exact hne (clear.1 p q f g e e' hf hg hk hk')
    · exact clear.2 p f e j o w hf hvp hk hw g hg s hs hgn

/-- C35's example is faithful. -/
example : Faithful ExR.one (.strct 0) ExR.lib := (Faith.faithful_readable ExR.one_flatten).mpr ExR.lib_readable

/-- The instance, without conditions on flattened fields. -/
example : ∃ s, serializeVal true (fun _ _ => none) ExR.one ExS.libName (.strct 0) ExR.lib = .ok (s, .ok ()) ∧ (∃ d, Transported s.out d) ∧
    ∀ d, Transported s.out d → (readTy true ExR.one (.strct 0) d.input = .ok (.ok ExR.lib) ↔ Faithful ExR.one (.strct 0) ExR.lib) := by
  obtain ⟨as, g, h⟩ := represents_exists ExR.lib_ty ExS.libName
  have hn : ElemNsOk (urls (declaredNs ExR.one (.strct 0))) ExS.libName := .inr (.inl (by simp [ExS.libName, urls, declaredNs, ExR.one, ExR.env]))
  obtain ⟨s, r, h1, h2, h3⟩ := C32_document_partial true (fun _ _ => none) ExR.one ExR.one_declared (envOk_distinct ExR.one_ok) ExS.libName (.strct 0) hn ExR.lib as g h
    (rootPlainFree_of (.inr ⟨ExR.one_named, by decide⟩) ExR.lib_ty)
  have hr := h3 fun _ _ => rfl
  subst hr
  exact C35_exact_partial true true _ (fun _ _ => rfl) ExR.one ExR.one_declared ExR.one_ok ExS.libName (.strct 0) hn ExR.lib ExR.lib_ty
    ((C32_document_iff true _ (fun _ _ => rfl) ExR.one ExR.one_declared (envOk_distinct ExR.one_ok) ExS.libName (.strct 0) hn ExR.lib as g h).mp ⟨s, h1, h2 rfl⟩)

/-- A struct with two flattened fields. -/
example : ∃ s, serializeVal true (fun _ _ => none) ExR.env { ns := "urn:x", loc := "Two" } (.strct 2) (.strct [.enm 0 none, .enm 1 none]) = .ok (s, .ok ()) ∧
    (∃ d, Transported s.out d) ∧ ∀ d, Transported s.out d → readTy true ExR.env (.strct 2) d.input ≠ .ok (.ok (.strct [.enm 0 none, .enm 1 none])) := by
  have hv : HasTy ExR.env (.strct 2) (.strct [.enm 0 none, .enm 1 none]) := by
    refine .strct rfl ?_ ?_ ?_
    · intro p f v hf hv
      rcases p with _ | _ | p <;> simp [ExR.env, ExR.twoFields] at hf hv <;> subst hf <;> subst hv <;> trivial
    · intro p f s v w hf hv hk hw
      rcases p with _ | _ | p <;> simp [ExR.env, ExR.twoFields] at hf hv <;> subst hf <;> simp at hk
    · intro p f e v hf hv hk
      rcases p with _ | _ | p <;> simp [ExR.env, ExR.twoFields] at hf hv <;> subst hf <;> subst hv <;> simp at hk <;> subst hk <;>
        exact .unit rfl rfl
  have hn : ElemNsOk (urls (declaredNs ExR.env (.strct 2))) { ns := "urn:x", loc := "Two" } := .inr (.inl (by simp [urls, declaredNs, ExR.env]))
  obtain ⟨as, g, h⟩ := represents_exists hv { ns := "urn:x", loc := "Two" }
  obtain ⟨s, r, h1, h2, h3⟩ := C32_document_partial true (fun _ _ => none) ExR.env ExR.env_declared (envOk_distinct ExR.env_ok) _ (.strct 2) hn _ as g h
    (rootPlainFree_of (.inr ⟨ExR.env_named, by decide⟩) hv)
  have hr := h3 fun _ _ => rfl
  subst hr
  exact C35_flattened_never true true _ (fun _ _ => rfl) ExR.env ExR.env_declared ExR.env_ok _ 2 hn _ hv
    ((C32_document_iff true _ (fun _ _ => rfl) ExR.env ExR.env_declared (envOk_distinct ExR.env_ok) _ (.strct 2) hn _ as g h).mp ⟨s, h1, h2 rfl⟩)
    (.inl ⟨0, 1, _, _, 0, 1, by decide, rfl, rfl, rfl, rfl⟩)

end SX
