import Verif.Proof.Kept
import Verif.Props.Reread
import Verif.Props.Expanded
import Verif.Props.OpenRound

/-! # C86: what reading keeps, and the document written as its normal form -/
namespace SX
open Spec

/-- C86: a document is read as the value of another one exactly if their declared content is alike: but for the texts that stand for values and for defaults that are
left out, nothing that is declared is lost in reading. -/
theorem C86_kept (dbg dbg' : Bool) (env : Env) (hok : EnvOk env) (ty : Ty) (d d' : Doc) (v : Val) (h : readTy dbg env ty d.input = .ok (.ok v)) :
    readTy dbg' env ty d'.input = .ok (.ok v) ↔ Alike env ty d.root d'.root := by
  rw [C18_value dbg env hok] at h
  rw [C18_value dbg' env hok]
  constructor
  · exact fun h' => value_alike env hok h h'
  · intro ha
    rw [← alike_value env hok ha]
    exact h

namespace ExR

/-- `<Opt xmlns="urn:x"><o> 1 </o><s>hi</s></Opt>`: the default of `o` in another place, and written. -/
def hiDoc' : Doc := optDoc (inX "o" (.chars " 1 " false ⟨1, 5⟩ .nil) (inX "s" (.chars "hi" false ⟨1, 6⟩ .nil) .nil))

end ExR

example : Alike ExR.one (.strct 3) ExR.hiDoc.root ExR.hiDoc'.root :=
  (C86_kept true true ExR.one ExR.one_ok (.strct 3) ExR.hiDoc ExR.hiDoc' _ rfl).mp rfl

example : ¬ Alike ExR.one (.strct 3) ExR.hiDoc.root ExR.zeroDoc.root := by
  intro h
  have := (C86_kept true true ExR.one ExR.one_ok (.strct 3) ExR.hiDoc ExR.zeroDoc _ rfl).mpr h
  cases this

/-- C86: if no field in reach has a default then also nothing is added or left out: as many children for each field and variant, and as many attributes.  (The first
level; it applies to the children in turn.) -/
theorem C86_counts (env : Env) (i : Nat) (hd : ∀ f ∈ (env.strct i).fields, f.default = none) (x y : Elem) (h : Alike env (.strct i) x y) :
    (∀ f s, f ∈ (env.strct i).fields → f.kind = .element s →
      Rowwise (Alike env s.ty) (x.children.childrenNamed f.name.expanded) (y.children.childrenNamed f.name.expanded)) ∧
    ∀ f o t, f ∈ (env.strct i).fields → f.kind = .attribute o t →
      Rowwise (fun a b => ∃ v, t.parse a.value = .ok v ∧ t.parse b.value = .ok v) (attrsNamed f.name.expanded x.attrs) (attrsNamed f.name.expanded y.attrs) := by
  cases h with
  | strct attrs counts items flat flatCounts flatItems =>
    constructor
    · intro f s hf hk
      have hl : (x.children.childrenNamed f.name.expanded).length = (y.children.childrenNamed f.name.expanded).length := by
        rcases counts f s hf hk with h | ⟨-, -, d, h, -⟩ | ⟨-, -, d, h, -⟩
        · exact h
        · rw [hd f hf] at h; cases h
        · rw [hd f hf] at h; cases h
      exact rowwise_of_pointwise hl fun p u v hu hv => items f s p u v hf hk hl hu hv
    · intro f o t hf hk
      rcases attrs f o t hf hk with ⟨h1, h2⟩ | ⟨a, b, v, h1, h2, h3, h4⟩ | ⟨-, a, v, -, -, h⟩ | ⟨-, a, v, -, -, h⟩
      · rw [h1, h2]; exact .nil
      · rw [h1, h2]; exact .cons ⟨v, h3, h4⟩ .nil
      · rw [hd f hf] at h; cases h
      · rw [hd f hf] at h; cases h

/-- C86: what is written for a value that was read from a document has, once it is read from a document again, declared content that is alike: nothing declared is lost,
and nothing is made up but texts for values and defaults. -/
theorem C86_rewritten (dbg dbg' : Bool) (env : Env) (henv : NamesDeclared env) (hok : EnvOk env) (hfl : FlattenOk env)
    (hst : TextsStable env) (hdf : DefaultsOk env) (ty : Ty) (hty : ∀ t, ty = .text t → Stable t) (name : EName)
    (hn : ElemNsOk (urls (declaredNs env ty)) name) (hc : NoClash env name) (d : Doc) (hd : d.root.TextVisible) (v : Val)
    (h : readTy dbg env ty d.input = .ok (.ok v)) :
    ∃ s, serializeVal dbg' (fun _ _ => none) env name ty v = .ok (s, .ok ()) ∧ (∃ d', ReadsBack s.out d') ∧ ∀ d', ReadsBack s.out d' → Alike env ty d.root d'.root := by
  obtain ⟨s, h1, h2, h3⟩ := C45_reread dbg dbg' dbg' env henv hok hfl hst hdf ty hty name hn hc d hd v h
  exact ⟨s, h1, h2, fun d' hd' => (C86_kept dbg dbg' env hok ty d d' v h).mp (h3 d' hd')⟩

example : ∃ s, serializeVal true (fun _ _ => none) ExR.one { ns := "urn:x", loc := "Opt" } (.strct 3)
      (.strct [.opt (some (.text (.bool true))), .text (.str "hi")]) = .ok (s, .ok ()) ∧ (∃ d', ReadsBack s.out d') ∧
    ∀ d', ReadsBack s.out d' → Alike ExR.one (.strct 3) ExR.hiDoc.root d'.root :=
  C86_rewritten true true ExR.one ExR.one_declared ExR.one_ok ExR.one_flatten ExR.one_stable ExR.one_defaults (.strct 3) (by simp) _
    (.inr (.inl (by simp [urls, declaredNs, ExR.one, ExR.env]))) (.inr ⟨ExR.one_named, by decide⟩) ExR.hiDoc
    (by simp only [Elem.TextVisible, TextVisible, ExR.hiDoc, ExR.optDoc, ExR.inX, Forest.text]; decide) _ rfl

/-- C86: different values are written differently: no document can be what a parser reports for both. -/
theorem C86_injective (dbg : Bool) (env : Env) (henv : NamesDeclared env) (hok : EnvOk env) (hfl : FlattenOk env) (name : EName) (ty : Ty)
    (hn : ElemNsOk (urls (declaredNs env ty)) name) (v v' : Val) (hv : HasTy env ty v) (hv' : HasTy env ty v')
    (hpf : RootPlainFree env name ty v) (hpf' : RootPlainFree env name ty v') (hr : Readable env ty v) (hr' : Readable env ty v')
    (s s' : WState) (r r' : Except SErr Unit) (hs : serializeVal dbg (fun _ _ => none) env name ty v = .ok (s, r))
    (hs' : serializeVal dbg (fun _ _ => none) env name ty v' = .ok (s', r')) :
    (∀ d, ReadsBack s.out d → ReadsBack s'.out d → v = v') ∧ (s.out = s'.out ↔ v = v') := by
  obtain ⟨t, h1, ⟨d, hd⟩, h3⟩ := C35_roundtrip_partial dbg dbg env henv hok hfl name ty hn v hv hpf hr
  obtain ⟨t', h1', -, h3'⟩ := C35_roundtrip_partial dbg dbg env henv hok hfl name ty hn v' hv' hpf' hr'
  rw [hs] at h1
  rw [hs'] at h1'
  cases h1
  cases h1'
  have hinj : ∀ d, ReadsBack s.out d → ReadsBack s'.out d → v = v' := by
    intro d hd hd'
    have k := h3 d hd
    rw [h3' d hd'] at k
    cases k
    rfl
  refine ⟨hinj, fun he => hinj d hd (he ▸ hd), fun he => ?_⟩
  subst he
  rw [hs] at hs'
  cases hs'
  rfl

/-- C86: so what is written for what was read is a normal form: two documents whose values can be read back are rewritten in the same way exactly if their declared content is alike; and
a document that was written like this is rewritten as it is. -/
theorem C86_normal_form (dbg : Bool) (env : Env) (henv : NamesDeclared env) (hok : EnvOk env) (hfl : FlattenOk env)
    (hst : TextsStable env) (hdf : DefaultsOk env) (ty : Ty) (hty : ∀ t, ty = .text t → Stable t) (name : EName)
    (hn : ElemNsOk (urls (declaredNs env ty)) name) (hc : NoClash env name) (d d' : Doc) (hd : d.root.TextVisible) (hd' : d'.root.TextVisible) (v v' : Val)
    (h : readTy dbg env ty d.input = .ok (.ok v)) (h' : readTy dbg env ty d'.input = .ok (.ok v')) :
    ∃ s s', serializeVal dbg (fun _ _ => none) env name ty v = .ok (s, .ok ()) ∧ serializeVal dbg (fun _ _ => none) env name ty v' = .ok (s', .ok ()) ∧
      (s.out = s'.out ↔ Alike env ty d.root d'.root) ∧ (ReadsBack s.out d' → s'.out = s.out) := by
  obtain ⟨hv, hr⟩ := C45_read_good dbg env hok hst hdf ty hty d hd v h
  obtain ⟨hv', hr'⟩ := C45_read_good dbg env hok hst hdf ty hty d' hd' v' h'
  have hpf := rootPlainFree_of hc hv
  have hpf' := rootPlainFree_of hc hv'
  obtain ⟨s, h1, -, h3⟩ := C35_roundtrip_partial dbg dbg env henv hok hfl name ty hn v hv hpf hr
  obtain ⟨s', h1', -, -⟩ := C35_roundtrip_partial dbg dbg env henv hok hfl name ty hn v' hv' hpf' hr'
  have hinj := C86_injective dbg env henv hok hfl name ty hn v v' hv hv' hpf hpf' hr hr' s s' _ _ h1 h1'
  refine ⟨s, s', h1, h1', ?_, ?_⟩
  · rw [hinj.2, ← C86_kept dbg dbg env hok ty d d' v h, h']
    constructor
    · rintro rfl; rfl
    · intro h; cases h; rfl
  · intro hb
    have k := h3 d' hb
    rw [h'] at k
    cases k
    rw [h1] at h1'
    cases h1'
    rfl

example : ∃ s s', serializeVal true (fun _ _ => none) ExR.one { ns := "urn:x", loc := "Opt" } (.strct 3)
      (.strct [.opt (some (.text (.bool true))), .text (.str "hi")]) = .ok (s, .ok ()) ∧
    serializeVal true (fun _ _ => none) ExR.one { ns := "urn:x", loc := "Opt" } (.strct 3)
      (.strct [.opt (some (.text (.bool false))), .text (.str "")]) = .ok (s', .ok ()) ∧
    (s.out = s'.out ↔ Alike ExR.one (.strct 3) ExR.hiDoc.root ExR.zeroDoc.root) ∧ (ReadsBack s.out ExR.zeroDoc → s'.out = s.out) :=
  C86_normal_form true ExR.one ExR.one_declared ExR.one_ok ExR.one_flatten ExR.one_stable ExR.one_defaults (.strct 3) (by simp) _
    (.inr (.inl (by simp [urls, declaredNs, ExR.one, ExR.env]))) (.inr ⟨ExR.one_named, by decide⟩) ExR.hiDoc ExR.zeroDoc
    (by simp only [Elem.TextVisible, TextVisible, ExR.hiDoc, ExR.optDoc, ExR.inX, Forest.text]; decide)
    (by simp only [Elem.TextVisible, TextVisible, ExR.zeroDoc, ExR.optDoc, ExR.inX, Forest.text]; decide) _ _ rfl rfl

/-- C86: whatever the types of fields are: values that are read back are told apart by what is written for them. -/
theorem C86_any (dbg : Bool) {σ β : Type} (V : Visitor σ) (D : Deser σ β) (sink : Sink) (hsink : ∀ out e, sink out e = none) (name : EName) (w w' : Open.Ser) (v v' : β)
    (h : Open.ReadsAs V D name w v) (h' : Open.ReadsAs V D name w' v') (hd : DocumentDeclared name w.attrs w.children) (hd' : DocumentDeclared name w'.attrs w'.children)
    (hf : NoForget w.children) (hf' : NoForget w'.children) :
    ∃ s s', serializeTo dbg sink name w.attrs w.children = .ok (s, .ok ()) ∧ serializeTo dbg sink name w'.attrs w'.children = .ok (s', .ok ()) ∧
      (∀ d, Transported s.out d → Transported s'.out d → v = v') ∧ (s.out = s'.out → v = v') := by
  obtain ⟨s, h1, ⟨d, h2⟩, h3⟩ := C77_document dbg false V D (.inl rfl) sink hsink name w v h hd hf
  obtain ⟨s', h1', -, h3'⟩ := C77_document dbg false V D (.inl rfl) sink hsink name w' v' h' hd' hf'
  have hinj : ∀ d, Transported s.out d → Transported s'.out d → v = v' := by
    intro d hd hd'
    have k := h3 d hd
    rw [h3' d hd'] at k
    cases k
    rfl
  exact ⟨s, s', h1, h1', hinj, fun he => hinj d h2 (he ▸ h2)⟩

/-- Numbers that are written as that many elements. -/
example (n m : Nat) : ∃ s s', serializeTo true ExOS.fine (ExOS.n "r") (ExRB.countSer n).attrs (ExRB.countSer n).children = .ok (s, .ok ()) ∧
    serializeTo true ExOS.fine (ExOS.n "r") (ExRB.countSer m).attrs (ExRB.countSer m).children = .ok (s', .ok ()) ∧
    (∀ d, Transported s.out d → Transported s'.out d → n = m) ∧ (s.out = s'.out → n = m) :=
  C86_any true ExRB.V ExRB.countD ExOS.fine (fun _ _ => rfl) _ _ _ n m (ExRB.count_back n _) (ExRB.count_back m _)
    ⟨.inr (.inr ⟨rfl, rfl⟩), ExRB.count_declared n⟩ ⟨.inr (.inr ⟨rfl, rfl⟩), ExRB.count_declared m⟩ (ExRB.count_noForget n) (ExRB.count_noForget m)

/-- A struct without defaults. -/
example := C86_counts ExR.one 1 (by
  intro f hf
  cases hf with
  | head => rfl
  | tail _ h => cases h with
    | head => rfl
    | tail _ h => cases h)

end SX
