import Verif.Proof.Singly
import Verif.Props.Faithful
import Verif.Props.Reread

/-
C45, whatever the types.
-/
namespace SX
open Spec

/-- Documents without the clash of C32 say what was declared. -/
theorem noPlainWithin_of {env : Env} (henv : NamesDeclared env) (hok : EnvOk env) {name : EName} {ty : Ty} {v : Val} (hc : NoClash env name)
    (hn : ElemNsOk (urls (declaredNs env ty)) name) (hv : HasTy env ty v) : NoPlainWithin env false [] [{ name, value := some (ty, v) }] := by
  obtain ⟨as, g, h⟩ := represents_exists hv name
  obtain ⟨s, r, h1, h2, h3⟩ := C32_document_partial true (fun _ _ => none) env henv (envOk_distinct hok) name ty hn v as g h (rootPlainFree_of hc hv)
  have hr := h3 fun _ _ => rfl
  subst hr
  exact (C32_document_iff true _ (fun _ _ => rfl) env henv (envOk_distinct hok) name ty hn v as g h).mp ⟨s, h1, h2 rfl⟩

/-- C45, exactly, for every set of types: what was read from a document is read again from what is written for it if and only if no struct in it has
several flattened fields.  (Variants with the name of an element field of the same struct do no harm: they are never read.) -/
theorem C45_reread_iff (dbg dbg' dbg'' : Bool) (sink : Sink) (hsink : ∀ out e, sink out e = none) (env : Env) (henv : NamesDeclared env) (hok : EnvOk env)
    (hst : TextsStable env) (hdf : DefaultsOk env) (hdc : DefaultsClear env) (ty : Ty) (hty : ∀ t, ty = .text t → Stable t) (name : EName)
    (hn : ElemNsOk (urls (declaredNs env ty)) name) (d : Doc) (hd : d.root.TextVisible) (v : Val)
    (h : readTy dbg env ty d.input = .ok (.ok v)) (hpw : NoPlainWithin env false [] [{ name, value := some (ty, v) }]) :
    ∃ s, serializeVal dbg' sink env name ty v = .ok (s, .ok ()) ∧ (∃ d', Transported s.out d') ∧
      ∀ d', Transported s.out d' → (readTy dbg'' env ty d'.input = .ok (.ok v) ↔ Singly env ty v) := by
  obtain ⟨s, h1, h2, h3⟩ := C35_exact_partial dbg' dbg'' sink hsink env henv hok name ty hn v (C45_read_good dbg env hok hst hdf ty hty d hd v h).1 hpw
  refine ⟨s, h1, h2, fun d' hd' => ?_⟩
  rw [h3 d' hd']
  exact SX.Singly.elem_fine hok hst hdf hdc d.root hd hty ((C18_value dbg env hok ty d v).mp h)

/-- C45, exactly: with at most one flattened field in each struct, the values that can be read from documents are the faithful ones of the type. -/
theorem C45_range_faithful (dbg : Bool) (env : Env) (hok : EnvOk env) (hone : ∀ i (p q : Nat) (f g : Field) e e', (env.strct i).fields[p]? = some f →
      (env.strct i).fields[q]? = some g → f.kind = .flatten e → g.kind = .flatten e' → p = q)
    (hst : TextsStable env) (hdf : DefaultsOk env) (hdc : DefaultsClear env) (ty : Ty) (hty : ∀ t, ty = .text t → Stable t) (v : Val) :
    (∃ d : Doc, d.root.TextVisible ∧ readTy dbg env ty d.input = .ok (.ok v)) ↔ HasTy env ty v ∧ Faithful env ty v := by
  constructor
  · rintro ⟨d, hd, h⟩
    have h1 := (C45_read_good dbg env hok hst hdf ty hty d hd v h).1
    exact ⟨h1, (SX.Singly.elem_fine hok hst hdf hdc d.root hd hty ((C18_value dbg env hok ty d v).mp h)).mpr (SX.Singly.singly_of hone h1)⟩
  · rintro ⟨h1, h2⟩
    obtain ⟨as, g, h⟩ := represents_exists h1 { ns := "", loc := "root" }
    refine ⟨{ startPos := ⟨0, 0⟩, prolog := [], epilog := [], eofPos := ⟨0, 0⟩, epilogOk := by simp
              root := { name := { loc := "root", ns := none, pfx := none }
                        attrs := as.map fun a => { name := { loc := a.1.loc, ns := some a.1.ns, pfx := none }, value := a.2 }
                        ns := [], pos := ⟨0, 0⟩, children := EForest.parsed g, endPos := ⟨0, 0⟩ } },
      ⟨(parsed_visible g).2, (parsed_visible g).1⟩, ?_⟩
    rw [C18_value dbg env hok]
    exact (Faith.root_value_iff hok h h1 _ (attrs_parsed as) (denotes_parsed g)).mpr h2

/- ```
struct S { a: Option<bool>, #[flatten] k: E }     // x:a
enum E { a, b }                                   // x:a, x:b
``` -/
namespace ExSi
open ExS (nx nn)

def fields : List Field :=
  [{ name := nx "a", kind := .element { card := .opt, ty := .text .bool }, default := none }, { name := nn "k", kind := .flatten 0, default := none }]

def env : Env where
  strct _ := { root := nx "S", namespaces := [("x", "urn:x")], fields := fields }
  enm _ := { ident := "E", root := nx "E", namespaces := [("x", "urn:x")], variants :=
        [{ name := nx "a", slot := none, skip := false }, { name := nx "b", slot := none, skip := false }] }

theorem env_ok : EnvOk env where
  elems := by
    intro i p q f g s s' hf hg hk hk' hn
    rcases p with _ | _ | p <;> rcases q with _ | _ | q <;> simp_all [env, fields] <;> subst hf <;> subst hg <;> simp_all
  attrs := by
    intro i p q f g o t o' t' hf hg hk hk' hn
    rcases p with _ | _ | p <;> rcases q with _ | _ | q <;> simp_all [env, fields] <;> subst hf <;> subst hg <;> simp_all
  noText := by
    intro i f t hf hk
    simp only [env, fields, List.mem_cons, List.not_mem_nil, or_false] at hf
    rcases hf with rfl | rfl <;> simp at hk
  variants := by
    intro i p q v w hv hw hn
    rcases p with _ | _ | p <;> rcases q with _ | _ | q <;> simp_all [env] <;> subst hv <;> subst hw <;> simp_all [DName.expanded, nx]
  noneFirst := by
    intro i d hd e he h1 h2
    simp only [env, List.mem_map, List.mem_cons, List.not_mem_nil, or_false] at he
    obtain ⟨v, hv, rfl⟩ := he
    rcases hv with rfl | rfl <;> simp [nx] at h2
  noSkip := by
    intro i v hv
    simp only [env, List.mem_cons, List.not_mem_nil, or_false] at hv
    rcases hv with rfl | rfl <;> rfl

theorem env_one : ∀ i (p q : Nat) (f g : Field) e e', (env.strct i).fields[p]? = some f →
    (env.strct i).fields[q]? = some g → f.kind = .flatten e → g.kind = .flatten e' → p = q := by
  intro i p q f g e e' hf hg hk hk'
  rcases p with _ | _ | p <;> rcases q with _ | _ | q <;> simp_all [env, fields] <;> subst hf <;> subst hg <;> simp_all

theorem env_stable : TextsStable env where
  elems := by
    intro i f s t hf hk ht
    simp only [env, fields, List.mem_cons, List.not_mem_nil, or_false] at hf
    rcases hf with rfl | rfl <;> simp at hk <;> subst hk <;> simp at ht <;> subst ht
    exact C45_bool_stable
  attrs := by
    intro i f o t hf hk
    simp only [env, fields, List.mem_cons, List.not_mem_nil, or_false] at hf
    rcases hf with rfl | rfl <;> simp at hk
  variants := by
    intro i w s t hw hs ht
    simp only [env, List.mem_cons, List.not_mem_nil, or_false] at hw
    rcases hw with rfl | rfl <;> simp at hs

theorem no_default {i : Nat} {f : Field} (hf : f ∈ (env.strct i).fields) : f.default = none := by
  simp only [env, fields, List.mem_cons, List.not_mem_nil, or_false] at hf
  rcases hf with rfl | rfl <;> rfl

theorem env_defaults : DefaultsOk env where
  elems := by intro i f s d hf hk hd; rw [no_default hf] at hd; cases hd
  attrs := by intro i f o t d hf hk hd; rw [no_default hf] at hd; cases hd

theorem env_clear : DefaultsClear env := by intro i f s d hf hk hd; rw [no_default hf] at hd; cases hd

theorem env_declared : NamesDeclared env where
  mappings := by
    intro ty x hx
    cases ty with
    | text t => simp [declaredNs] at hx
    | strct i => simp [declaredNs, env] at hx; subst hx; exact ⟨by decide, by decide, by decide⟩
    | enm i => simp [declaredNs, env] at hx; subst hx; exact ⟨by decide, by decide, by decide⟩
  elems := by
    intro i f s hf hk
    simp only [env, fields, List.mem_cons, List.not_mem_nil, or_false] at hf
    rcases hf with rfl | rfl <;> simp [env, nx, urls, ElemNsOk, DName.expanded] at hk ⊢
  attrs := by
    intro i f o t hf hk
    simp only [env, fields, List.mem_cons, List.not_mem_nil, or_false] at hf
    rcases hf with rfl | rfl <;> simp at hk
  variants := by
    intro i v hv
    simp only [env, List.mem_cons, List.not_mem_nil, or_false] at hv
    rcases hv with rfl | rfl <;> simp [env, nx, urls, ElemNsOk, DName.expanded]

theorem env_named : AllNamed env where
  fields := by
    intro i f s hf hk
    simp only [env, fields, List.mem_cons, List.not_mem_nil, or_false] at hf
    rcases hf with rfl | rfl <;> simp [nx, DName.expanded] at hk ⊢
  variants := by
    intro i v hv
    simp only [env, List.mem_cons, List.not_mem_nil, or_false] at hv
    rcases hv with rfl | rfl <;> simp [nx, DName.expanded]

/-- `<S xmlns="urn:x"><b/><a>1</a></S>`. -/
def doc : Doc :=
  { startPos := ⟨0, 0⟩, prolog := [], epilog := [], eofPos := ⟨2, 0⟩, epilogOk := by simp
    root := { name := { loc := "S", ns := some "urn:x", pfx := none }, attrs := [], ns := [("", "urn:x")], pos := ⟨1, 0⟩, endPos := ⟨1, 9⟩
              children := ExR.inX "b" .nil (ExR.inX "a" (.chars "1" false ⟨1, 6⟩ .nil) .nil) } }

def val : Val := .strct [.opt (some (.text (.bool true))), .enm 1 none]

end ExSi

/-- C45's types, though not `FlattenOk`: the value read can be written and read again. -/
example : ¬ FlattenOk ExSi.env ∧ ∃ s, serializeVal true (fun _ _ => none) ExSi.env { ns := "urn:x", loc := "S" } (.strct 0) ExSi.val = .ok (s, .ok ()) ∧
    (∃ d', Transported s.out d') ∧ ∀ d', Transported s.out d' → readTy true ExSi.env (.strct 0) d'.input = .ok (.ok ExSi.val) := by
  refine ⟨fun h => h.apart 0 _ _ _ 0 _ (List.mem_cons_self ..) (by simp [ExSi.env, ExSi.fields]; exact .inr rfl) rfl rfl (List.mem_cons_self ..) rfl, ?_⟩
  have hr : readTy true ExSi.env (.strct 0) ExSi.doc.input = .ok (.ok ExSi.val) := rfl
  have hvis : ExSi.doc.root.TextVisible := by
    simp only [Elem.TextVisible, TextVisible, ExSi.doc, ExR.inX, Forest.text]; decide
  have hv := (C45_read_good true ExSi.env ExSi.env_ok ExSi.env_stable ExSi.env_defaults (.strct 0) (by simp) ExSi.doc hvis _ hr).1
  have hn : ElemNsOk (urls (declaredNs ExSi.env (.strct 0))) { ns := "urn:x", loc := "S" } := .inr (.inl (by simp [urls, declaredNs, ExSi.env]))
  obtain ⟨s, h1, h2, h3⟩ := C45_reread_iff true true true _ (fun _ _ => rfl) ExSi.env ExSi.env_declared ExSi.env_ok ExSi.env_stable ExSi.env_defaults
    ExSi.env_clear (.strct 0) (by simp) _ hn ExSi.doc hvis _ hr (noPlainWithin_of ExSi.env_declared ExSi.env_ok (.inr ⟨ExSi.env_named, by decide⟩) hn hv)
  exact ⟨s, h1, h2, fun d' hd' => (h3 d' hd').mpr (SX.Singly.singly_of ExSi.env_one hv)⟩

/-- `<Two xmlns="urn:x"><q/><a/></Two>`, where both fields are flattened, is read, but what is written for the value is not read as it. -/
theorem C45_two_flattened : ∃ (d : Doc) (v : Val), d.root.TextVisible ∧ readTy true ExR.env (.strct 2) d.input = .ok (.ok v) ∧
    ∃ s, serializeVal true (fun _ _ => none) ExR.env { ns := "urn:x", loc := "Two" } (.strct 2) v = .ok (s, .ok ()) ∧ (∃ d', Transported s.out d') ∧
      ∀ d', Transported s.out d' → readTy true ExR.env (.strct 2) d'.input ≠ .ok (.ok v) := by
  have hv : HasTy ExR.env (.strct 2) (.strct [.enm 0 none, .enm 1 none]) := by
    refine .strct rfl ?_ ?_ ?_
    · intro p f v hf hv
      rcases p with _ | _ | p <;> simp [ExR.env, ExR.twoFields] at hf hv <;> subst hf <;> subst hv <;> trivial
    · intro p f s v w hf hv hk hw
      rcases p with _ | _ | p <;> simp [ExR.env, ExR.twoFields] at hf hv <;> subst hf <;> simp at hk
    · intro p f e v hf hv hk
      rcases p with _ | _ | p <;> simp [ExR.env, ExR.twoFields] at hf hv <;> subst hf <;> subst hv <;> simp at hk <;> subst hk <;>
        exact .unit rfl rfl
  have hn : ElemNsOk (urls (declaredNs ExR.env (.strct 2))) { ns := "urn:x", loc := "Two" } := .inr (.inl (by simp [urls, declaredNs, ExR.env]))
  refine ⟨ExR.optDoc (ExR.inX "q" .nil (ExR.inX "a" .nil .nil)), .strct [.enm 0 none, .enm 1 none], ?_, rfl, ?_⟩
  · simp only [Elem.TextVisible, TextVisible, ExR.optDoc, ExR.inX, Forest.text]; decide
  · exact C35_flattened_never true true _ (fun _ _ => rfl) ExR.env ExR.env_declared ExR.env_ok _ 2 hn _ hv
      (noPlainWithin_of ExR.env_declared ExR.env_ok (.inr ⟨ExR.env_named, by decide⟩) hn hv) (.inl ⟨0, 1, _, _, 0, 1, by decide, rfl, rfl, rfl, rfl⟩)

/-- The values of `S` that can be read: `a` is never one of them as `E`. -/
example : ¬ ∃ d : Doc, d.root.TextVisible ∧ readTy true ExSi.env (.strct 0) d.input = .ok (.ok (.strct [.opt none, .enm 0 none])) := by
  rw [C45_range_faithful true ExSi.env ExSi.env_ok ExSi.env_one ExSi.env_stable ExSi.env_defaults ExSi.env_clear (.strct 0) (by simp)]
  rintro ⟨-, h⟩
  cases h with
  | strct _ _ _ _ _ clear => exact clear.2 1 _ 0 0 none _ rfl rfl rfl rfl _ (List.mem_cons_self ..) _ rfl rfl

end SX
