import Verif.Proof.RoundTrip
import Verif.Props.Derive
import Verif.Props.DeriveSer
import Verif.Props.Text

/-! # C35, C36: reading back what was serialized -/
namespace SX
open Spec

/-! Concrete types used to show that hypotheses are met. -/
namespace ExR
open ExS (nd nx nn str book bookFields libFields libName fine)

/-- As `ExS.env`, without the skipped variant (for which `Deserialize` cannot be derived). -/
def kinds : List Variant :=
  [{ name := nx "a", slot := none, skip := false },
   { name := nx "b", slot := some { card := .many, ty := .strct 1 }, skip := false }]

/-- `struct Two { #[flatten] first: Kind, #[flatten] second: Other }`, `enum Other { X, Y }`,
`struct Opt { #[default] o: Option<bool>, s: String }` where `Opt`'s `Default` has `o: Some(true)`. -/
def twoFields : List Field :=
  [{ name := nn "first", kind := .flatten 0, default := none }, { name := nn "second", kind := .flatten 1, default := none }]

def optFields : List Field :=
  [{ name := nx "o", kind := .element { card := .opt, ty := .text .bool }, default := some (.opt (some (.text (.bool true)))) },
   { name := nx "s", kind := .element { card := .one, ty := .text .string }, default := none }]

def env : Env where
  strct i := match i with
    | 0 => { root := nd "Lib", namespaces := [("", "urn:d"), ("x", "urn:x")], fields := libFields }
    | 1 => { root := nd "Book", namespaces := [("", "urn:d")], fields := bookFields }
    | 2 => { root := nx "Two", namespaces := [("x", "urn:x")], fields := twoFields }
    | 3 => { root := nx "Opt", namespaces := [("x", "urn:x")], fields := optFields }
    | _ => { root := nd "None", namespaces := [], fields := [] }
  enm i := match i with
    | 0 => { ident := "Kind", root := nx "Kind", namespaces := [("y", "urn:x")], variants := kinds }
    | 1 => { ident := "Other", root := nx "Other", namespaces := [("y", "urn:x")], variants :=
        [{ name := nx "p", slot := none, skip := false }, { name := nx "q", slot := none, skip := false }] }
    | _ => { ident := "None", root := nx "None", namespaces := [], variants := [] }

theorem env_declared : NamesDeclared env where
  mappings := by
    intro ty x hx
    cases ty with
    | text t => simp [declaredNs] at hx
    | strct i =>
      simp only [declaredNs, env] at hx
      split at hx <;> simp only [List.mem_cons, List.not_mem_nil, or_false] at hx
      · rcases hx with rfl | rfl <;> exact ⟨by decide, by decide, by decide⟩
      all_goals subst hx; exact ⟨by decide, by decide, by decide⟩
    | enm i =>
      simp only [declaredNs, env] at hx
      split at hx <;> simp only [List.mem_cons, List.not_mem_nil, or_false] at hx
      all_goals subst hx; exact ⟨by decide, by decide, by decide⟩
  elems := by
    intro i f s hf hk
    simp only [env] at hf ⊢
    split at hf <;> simp only [libFields, bookFields, twoFields, optFields, List.mem_cons, List.not_mem_nil, or_false] at hf
    · rcases hf with rfl | rfl | rfl | rfl | rfl | rfl <;> simp [nd, nn, nx, DName.expanded, ElemNsOk, urls] at hk ⊢
    · rcases hf with rfl | rfl <;> simp [nd, nn, nx, DName.expanded, ElemNsOk, urls] at hk ⊢
    · rcases hf with rfl | rfl <;> simp at hk
    · rcases hf with rfl | rfl <;> simp [nd, nn, nx, DName.expanded, ElemNsOk, urls] at hk ⊢
  attrs := by
    intro i f o t hf hk
    simp only [env] at hf ⊢
    split at hf <;> simp only [libFields, bookFields, twoFields, optFields, List.mem_cons, List.not_mem_nil, or_false] at hf
    · rcases hf with rfl | rfl | rfl | rfl | rfl | rfl <;> simp [nd, nn, nx, DName.expanded, urls] at hk ⊢
    all_goals rcases hf with rfl | rfl <;> simp at hk
  variants := by
    intro i w hw _
    simp only [env] at hw ⊢
    split at hw <;> simp only [kinds, List.mem_cons, List.not_mem_nil, or_false] at hw
    all_goals rcases hw with rfl | rfl <;> simp [nx, DName.expanded, ElemNsOk, urls]

theorem env_named : AllNamed env where
  fields := by
    intro i f s hf hk
    simp only [env] at hf
    split at hf <;> simp only [libFields, bookFields, twoFields, optFields, List.mem_cons, List.not_mem_nil, or_false] at hf
    · rcases hf with rfl | rfl | rfl | rfl | rfl | rfl <;> simp [nd, nn, nx, DName.expanded] at hk ⊢
    · rcases hf with rfl | rfl <;> simp [nd, nn, nx, DName.expanded] at hk ⊢
    · rcases hf with rfl | rfl <;> simp at hk
    · rcases hf with rfl | rfl <;> simp [nd, nn, nx, DName.expanded] at hk ⊢
  variants := by
    intro i w hw _
    simp only [env] at hw
    split at hw <;> simp only [kinds, List.mem_cons, List.not_mem_nil, or_false] at hw
    all_goals rcases hw with rfl | rfl <;> simp [nx, DName.expanded]

theorem env_ok : EnvOk env where
  elems := by
    intro i p q f g s s' hf hg hk hk' hn
    simp only [env] at hf hg
    split at hf
    · rcases p with _ | _ | _ | _ | _ | _ | p <;> rcases q with _ | _ | _ | _ | _ | _ | q <;> simp_all [libFields] <;> subst hf <;>
        subst hg <;> simp_all [DName.expanded, nd, nn, nx]
    · rcases p with _ | _ | p <;> rcases q with _ | _ | q <;> simp_all [bookFields] <;> subst hf <;> subst hg <;>
        simp_all [DName.expanded, nd]
    · rcases p with _ | _ | p <;> rcases q with _ | _ | q <;> simp_all [twoFields] <;> subst hf <;> subst hg <;> simp_all
    · rcases p with _ | _ | p <;> rcases q with _ | _ | q <;> simp_all [optFields] <;> subst hf <;> subst hg <;>
        simp_all [DName.expanded, nx]
    · simp at hf
  attrs := by
    intro i p q f g o t o' t' hf hg hk hk' hn
    simp only [env] at hf hg
    split at hf
    · rcases p with _ | _ | _ | _ | _ | _ | p <;> rcases q with _ | _ | _ | _ | _ | _ | q <;> simp_all [libFields] <;> subst hf <;>
        subst hg <;> simp_all [DName.expanded, nd, nn, nx]
    · rcases p with _ | _ | p <;> rcases q with _ | _ | q <;> simp_all [bookFields] <;> subst hf <;> subst hg <;> simp_all
    · rcases p with _ | _ | p <;> rcases q with _ | _ | q <;> simp_all [twoFields] <;> subst hf <;> subst hg <;> simp_all
    · rcases p with _ | _ | p <;> rcases q with _ | _ | q <;> simp_all [optFields] <;> subst hf <;> subst hg <;> simp_all
    · simp at hf
  noText := by
    intro i f t hf hk
    simp only [env] at hf
    split at hf <;> simp only [libFields, bookFields, twoFields, optFields, List.mem_cons, List.not_mem_nil, or_false] at hf
    · rcases hf with rfl | rfl | rfl | rfl | rfl | rfl <;> simp at hk
    all_goals rcases hf with rfl | rfl <;> simp at hk
  variants := by
    intro i p q v w hv hw hn
    simp only [env] at hv hw
    split at hv
    · rcases p with _ | _ | p <;> rcases q with _ | _ | q <;> simp_all [kinds] <;> subst hv <;> subst hw <;>
        simp_all [DName.expanded, nx]
    · rcases p with _ | _ | p <;> rcases q with _ | _ | q <;> simp_all <;> subst hv <;> subst hw <;>
        simp_all [DName.expanded, nx]
    · simp at hv
  noneFirst := by
    intro i d hd e he h1 h2
    simp only [env, List.mem_map] at he
    obtain ⟨v, hv, rfl⟩ := he
    split at hv <;> simp only [kinds, List.mem_cons, List.not_mem_nil, or_false] at hv
    all_goals rcases hv with rfl | rfl <;> simp [nx] at h2
  noSkip := by
    intro i v hv
    simp only [env] at hv
    split at hv <;> simp only [kinds, List.mem_cons, List.not_mem_nil, or_false] at hv
    all_goals rcases hv with rfl | rfl <;> rfl

/-- The same without `Two`. -/
def one : Env := { strct := fun i => env.strct (if i = 2 then 9 else i), enm := env.enm }

theorem one_declared : NamesDeclared one where
  mappings := by
    intro ty x hx
    cases ty with
    | text t => simp [declaredNs] at hx
    | strct i => exact env_declared.mappings (.strct (if i = 2 then 9 else i)) x hx
    | enm i => exact env_declared.mappings (.enm i) x hx
  elems i := env_declared.elems (if i = 2 then 9 else i)
  attrs i := env_declared.attrs (if i = 2 then 9 else i)
  variants := env_declared.variants

theorem one_named : AllNamed one where
  fields i := env_named.fields (if i = 2 then 9 else i)
  variants := env_named.variants

theorem one_ok : EnvOk one where
  elems i := env_ok.elems (if i = 2 then 9 else i)
  attrs i := env_ok.attrs (if i = 2 then 9 else i)
  noText i := env_ok.noText (if i = 2 then 9 else i)
  variants := env_ok.variants
  noneFirst := env_ok.noneFirst
  noSkip := env_ok.noSkip

theorem one_flatten : FlattenOk one where
  one := by
    intro i p q f g e e' hf hg hk hk'
    simp only [one, env] at hf hg
    split at hf
    · rcases p with _ | _ | _ | _ | _ | _ | p <;> rcases q with _ | _ | _ | _ | _ | _ | q <;> simp_all [libFields] <;> subst hf <;>
        subst hg <;> simp_all
    · rcases p with _ | _ | p <;> rcases q with _ | _ | q <;> simp_all [bookFields] <;> subst hf <;> subst hg <;> simp_all
    · rename_i h; split at h <;> simp_all
    · rcases p with _ | _ | p <;> rcases q with _ | _ | q <;> simp_all [optFields] <;> subst hf <;> subst hg <;> simp_all
    · simp at hf
  apart := by
    intro i f g s e w hf hg hk hk' hw
    have hne : (if i = 2 then 9 else i) ≠ 2 := by split <;> omega
    simp only [one] at hf hg
    generalize (if i = 2 then 9 else i) = i at hf hg hne
    simp only [env] at hf hg
    split at hf <;> simp only [libFields, bookFields, optFields, List.mem_cons, List.not_mem_nil, or_false] at hf hg
    · rcases hg with rfl | rfl | rfl | rfl | rfl | rfl <;> simp at hk'
      subst hk'
      simp only [one, env, kinds, List.mem_cons, List.not_mem_nil, or_false] at hw
      rcases hf with rfl | rfl | rfl | rfl | rfl | rfl <;> rcases hw with rfl | rfl <;> simp [nd, nn, nx, DName.expanded] at hk ⊢
    · rcases hg with rfl | rfl <;> simp at hk'
    · exact absurd rfl hne
    · rcases hg with rfl | rfl <;> simp at hk'

/-- As `ExS.lib`. -/
def lib : Val := ExS.lib

theorem book_ty (b : Bool) (l : List Val) (h : ∀ v ∈ l, HasTy one (.strct 1) v) : HasTy one (.strct 1) (book b l) := by
  refine .strct rfl ?_ ?_ ?_
  · intro p f v hf hv
    rcases p with _ | _ | p <;> simp [one, env, bookFields] at hf hv <;> subst hf <;> subst hv <;> simp [Shape, CardOk]
  · intro p f s v w hf hv hk hw
    rcases p with _ | _ | p <;> simp [one, env, bookFields] at hf hv <;> subst hf <;> subst hv <;> simp at hk <;> subst hk <;>
      simp [valuesOf] at hw
    · subst hw; exact .text rfl
    · exact h w hw
  · intro p f e v hf hv hk
    rcases p with _ | _ | p <;> simp [one, env, bookFields] at hf hv <;> subst hf <;> simp at hk

theorem lib_ty : HasTy one (.strct 0) lib := by
  have h0 : ∀ b, HasTy one (.strct 1) (book b []) := fun b => book_ty b [] (by simp)
  refine .strct rfl ?_ ?_ ?_
  · intro p f v hf hv
    rcases p with _ | _ | _ | _ | _ | _ | p <;> simp [one, env, libFields] at hf hv <;> subst hf <;> subst hv <;>
      first
      | trivial
      | exact ⟨_, rfl⟩
      | exact ⟨_, rfl, rfl⟩
      | exact .inr ⟨_, rfl, _, rfl, rfl⟩
  · intro p f s v w hf hv hk hw
    rcases p with _ | _ | _ | _ | _ | _ | p <;> simp [one, env, libFields] at hf hv <;> subst hf <;> subst hv <;> simp at hk <;> subst hk <;>
      simp [valuesOf] at hw
    · subst hw; exact .text rfl
    · rcases hw with rfl | rfl
      · exact book_ty _ _ (by simpa using h0 false)
      · exact h0 false
  · intro p f e v hf hv hk
    rcases p with _ | _ | _ | _ | _ | _ | p <;> simp [one, env, libFields] at hf hv <;> subst hf <;> subst hv <;> simp at hk
    subst hk
    refine .payload (w := kinds[1]) (s := { card := .many, ty := .strct 1 }) rfl rfl ⟨_, rfl⟩ ?_
    simp only [valuesOf, List.mem_singleton, forall_eq]
    exact h0 true

end ExR

theorem envOk_distinct {env : Env} (h : EnvOk env) : AttrsDistinct env := h.attrs

/-! ## Which values are read back -/

/-- What was written can be reported by the parser: there is such a document. -/
theorem C35_reportable {name : EName} {as : List (EName × String)} {g : EForest} {out : List WEvent}
    (h : resolveEvents out [] = some (.start name as :: (g.events ++ [.stop]))) : ∃ d, ReadsBack out d := by
  refine ⟨{ startPos := ⟨0, 0⟩, prolog := [], epilog := [], eofPos := ⟨0, 0⟩, epilogOk := by simp
            root := { name := { loc := name.loc, ns := some name.ns, pfx := none }
                      attrs := as.map fun a => { name := { loc := a.1.loc, ns := some a.1.ns, pfx := none }, value := a.2 }
                      ns := [], pos := ⟨0, 0⟩, children := EForest.parsed g, endPos := ⟨0, 0⟩ } },
    name, as, g, h, rfl, attrs_parsed as, denotes_parsed g⟩

theorem readsBack_content {name : EName} {as : List (EName × String)} {g : EForest} {out : List WEvent} {d : Doc}
    (h : resolveEvents out [] = some (.start name as :: (g.events ++ [.stop]))) (hd : ReadsBack out d) :
    d.root.name.expanded = name ∧ d.root.attrs.map (fun a => (a.name.expanded, a.value)) = as ∧ Denotes g d.root.children := by
  obtain ⟨n, as', f, h1, h2, h3, h4⟩ := hd
  rw [h] at h1
  simp only [Option.some.injEq, List.cons.injEq, EEvent.start.injEq] at h1
  obtain ⟨⟨rfl, rfl⟩, h5⟩ := h1
  obtain ⟨rfl, -⟩ := events_inj _ _ _ _ h5
  exact ⟨h2, h3, h4⟩

/-- C35, exactly: whatever the types (with at most one flattened field per struct, see `C35_two_flattens_never`), a value that
was serialized is read back from the document if and only if it is `Readable`. -/
theorem C35_roundtrip_iff (dbg dbg' : Bool) (sink : Sink) (env : Env) (henv : NamesDeclared env) (hok : EnvOk env) (hfl : FlattenOk env)
    (name : EName) (ty : Ty) (hn : ElemNsOk (urls (declaredNs env ty)) name) (v : Val) (hv : HasTy env ty v) (hpf : RootPlainFree env name ty v) (s : WState)
    (hs : serializeVal dbg sink env name ty v = .ok (s, .ok ())) (d : Doc) (hd : ReadsBack s.out d) :
    readTy dbg' env ty d.input = .ok (.ok v) ↔ Readable env ty v := by
  obtain ⟨as, g, hr⟩ := represents_exists hv name
  obtain ⟨s', r, h1, h2, -⟩ := C32_document_partial dbg sink env henv (envOk_distinct hok) name ty hn v as g hr hpf
  rw [hs] at h1
  cases h1
  obtain ⟨-, ha, hc⟩ := readsBack_content (h2 rfl) hd
  rw [C18_value dbg' env hok]
  exact root_value_iff hok hfl hr hv d.root ha hc

/-- C35: serializing a readable value, with any sink that accepts everything, succeeds; the parser can report a document for it; and
every document that it can report is read as that very value.  Missing: values that are not `Readable`, which are not read back
(`C35_roundtrip_iff`), structs with several flattened fields (likewise, `C35_two_flattens_never`), and no-namespace elements
within elements with default namespaces (`C32_no_namespace_counterexample`). -/
theorem C35_roundtrip_partial (dbg dbg' : Bool) (env : Env) (henv : NamesDeclared env) (hok : EnvOk env) (hfl : FlattenOk env)
    (name : EName) (ty : Ty) (hn : ElemNsOk (urls (declaredNs env ty)) name) (v : Val) (hv : HasTy env ty v)
    (hpf : RootPlainFree env name ty v) (hr : Readable env ty v) :
    ∃ s, serializeVal dbg (fun _ _ => none) env name ty v = .ok (s, .ok ()) ∧ (∃ d, ReadsBack s.out d) ∧
      ∀ d, ReadsBack s.out d → readTy dbg' env ty d.input = .ok (.ok v) := by
  obtain ⟨as, g, h⟩ := represents_exists hv name
  obtain ⟨s, r, h1, h2, h3⟩ := C32_document_partial dbg (fun _ _ => none) env henv (envOk_distinct hok) name ty hn v as g h hpf
  have hr' := h3 fun _ _ => rfl
  subst hr'
  exact ⟨s, h1, C35_reportable (h2 rfl), fun d hd =>
    (C35_roundtrip_iff dbg dbg' _ env henv hok hfl name ty hn v hv hpf s h1 d hd).mpr hr⟩

/-- C35 is false of the code when a struct has two flattened fields: no value of it is ever read back (if the variants of the first
one have other names than the struct's element fields), whatever it is.  The first flattened field swallows the elements of
the second one (`deserialize.rs:427`). -/
theorem C35_two_flattens_never (dbg dbg' : Bool) (sink : Sink) (env : Env) (henv : NamesDeclared env) (hok : EnvOk env)
    (i p q : Nat) (f g : Field) (e e' : Nat) (hf : (env.strct i).fields[p]? = some f) (hk : f.kind = .flatten e)
    (hg : (env.strct i).fields[q]? = some g) (hk' : g.kind = .flatten e') (hpq : p < q)
    (hfirst : ∀ (q : Nat) (g : Field) e', (env.strct i).fields[q]? = some g → q < p → g.kind ≠ .flatten e')
    (hapart : ∀ w ∈ (env.enm e).variants, ∀ f ∈ (env.strct i).fields, ∀ s, f.kind = .element s → f.name.expanded ≠ w.name.expanded)
    (name : EName) (hn : ElemNsOk (urls (declaredNs env (.strct i))) name) (v : Val) (hv : HasTy env (.strct i) v)
    (hpf : RootPlainFree env name (.strct i) v) (s : WState) (hs : serializeVal dbg sink env name (.strct i) v = .ok (s, .ok ())) (d : Doc) (hd : ReadsBack s.out d) :
    readTy dbg' env (.strct i) d.input ≠ .ok (.ok v) := by
  obtain ⟨as, c, hr⟩ := represents_exists hv name
  obtain ⟨s', r, h1, h2, -⟩ := C32_document_partial dbg sink env henv (envOk_distinct hok) name _ hn v as c hr hpf
  rw [hs] at h1
  cases h1
  obtain ⟨-, ha, hc⟩ := readsBack_content (h2 rfl) hd
  rw [ne_eq, C18_value dbg' env hok]
  cases hv with
  | @strct _ vs len shape elems flats =>
    have hlt : p < vs.length := by rw [len]; exact (List.getElem?_eq_some_iff.mp hf).1
    have hlt' : q < vs.length := by rw [len]; exact (List.getElem?_eq_some_iff.mp hg).1
    refine two_flattens hok hf (List.getElem?_eq_getElem hlt) hk hg (List.getElem?_eq_getElem hlt') hk' hpq hfirst ?_ ?_
    · intro it hit
      obtain ⟨w, hw, hwn⟩ := variantItems_names hit
      rw [Bool.eq_false_iff]
      intro hdec
      obtain ⟨f', hf', s', hs', hfn⟩ := declaredElem_iff.mp hdec
      exact hapart w hw f' hf' s' hs' (by rw [hfn, hwn])
    · cases hr with
      | strct h r => exact kids_names h _ hc

/-! ### Readable texts -/

theorem visible_of_not_blank {s : String} (h : ¬ Blank s) : visible s = s := by simp [visible, h]

/-- C35: strings are read back unless they are blank but not empty. -/
theorem C35_string (env : Env) (s : String) : Readable env (.text .string) (.text (.str s)) ↔ (Blank s → s = "") := by
  constructor
  · intro h hb
    cases h with
    | text hs hp =>
      simp only [TextTy.toText, Option.some.injEq] at hs
      subst hs
      simp only [TextTy.parse, Res.ok.injEq, TVal.str.injEq, visible, hb, if_true] at hp
      exact hp.symm
  · intro h
    refine .text (s := s) rfl ?_
    simp only [TextTy.parse, visible]
    split
    · rename_i hb; rw [h hb]
    · rfl

/-- C35: booleans are read back. -/
theorem C35_bool (env : Env) (b : Bool) : Readable env (.text .bool) (.text (.bool b)) := by
  cases b
  · exact .text (s := "false") rfl (by rw [visible_of_not_blank (by decide)]; rfl)
  · exact .text (s := "true") rfl (by rw [visible_of_not_blank (by decide)]; rfl)

/-- C35: numbers of every integer type are read back. -/
theorem C35_int (env : Env) (t : IntTy) (n : Int) (hn : inRange t.signed t.bits n) : Readable env (.text (.int t)) (.text (.int n)) := by
  refine .text (s := intToString n) rfl ?_
  have hl := intToString_literal t n ((range_iff t n).mpr hn).1
  obtain ⟨e1, e2, -⟩ := intLiteral_ends _ _ _ hl
  have hb : ¬ Blank (intToString n) := by
    intro hb
    cases hh : (intToString n).toList with
    | nil => exact e1 hh
    | cons c l =>
      have := e2 c (by simp [hh])
      rw [hb c (by simp [hh])] at this
      simp at this
  rw [visible_of_not_blank hb]
  exact C05_int_roundtrip t n hn _ _ rfl ⟨[], [], by simp⟩

example : inRange true 32 (-5) := by simp [inRange]

/-- C35: a struct with no flattened fields and no `default` attributes is read back if its attributes and the values in its
element fields are. -/
theorem C35_struct (env : Env) (i : Nat) (vs : List Val) (ht : HasTy env (.strct i) (.strct vs))
    (hdef : ∀ f ∈ (env.strct i).fields, f.default = none) (hflat : ∀ f ∈ (env.strct i).fields, ∀ e, f.kind ≠ .flatten e)
    (hattr : ∀ (p : Nat) (f : Field) (v : Val) o t, (env.strct i).fields[p]? = some f → vs[p]? = some v → f.kind = .attribute o t →
      ∀ tv s, (v = .text tv ∨ v = .opt (some (.text tv))) → t.toText tv = some s → t.parse s = .ok tv)
    (helem : ∀ (p : Nat) (f : Field) (s : Slot) (v w : Val), (env.strct i).fields[p]? = some f → vs[p]? = some v →
        f.kind = .element s → w ∈ valuesOf s.card v → Readable env s.ty w) : Readable env (.strct i) (.strct vs) := by
  cases ht with
  | strct len shape elems flats =>
    refine .strct len ?_ ?_ helem ?_
    · intro p f v o t hf hv hk
      have hs := shape p f v hf hv
      rw [hk] at hs
      have hp := hattr p f v o t hf hv hk
      unfold AttrReadable
      cases o with
      | false =>
        obtain ⟨tv, rfl, hsome⟩ := hs
        obtain ⟨s, hs⟩ := Option.isSome_iff_exists.mp hsome
        simp only [attrText, hs]
        exact ⟨tv, hp tv s (.inl rfl) hs, by simp⟩
      | true =>
        rcases hs with rfl | ⟨w, rfl, tv, rfl, hsome⟩
        · simp [attrText, hdef f (List.mem_of_getElem? hf), attrAbsent]
        · obtain ⟨s, hs⟩ := Option.isSome_iff_exists.mp hsome
          simp only [attrText, hs]
          exact ⟨tv, hp tv s (.inr rfl) hs, by simp⟩
    · intro p f s v hf hv hk
      have hs := shape p f v hf hv
      simp only [Shape, hk] at hs
      refine ⟨hs, ?_⟩
      intro hnil
      rw [hdef f (List.mem_of_getElem? hf), Option.none_or]
      unfold slotAbsent
      cases hc : s.card with
      | one => rw [hc] at hnil; simp [valuesOf] at hnil
      | opt =>
        rw [hc] at hs hnil
        obtain ⟨o, rfl⟩ := hs
        cases o with
        | none => rfl
        | some _ => simp [valuesOf] at hnil
      | many =>
        rw [hc] at hs hnil
        obtain ⟨l, rfl⟩ := hs
        simp only [valuesOf] at hnil
        rw [hnil]
    · intro p f e v hf hv hk
      exact absurd hk (hflat f (List.mem_of_getElem? hf) e)

namespace ExR
open ExS (nd nx nn str book bookFields libFields libName fine)

theorem book_readable (b : Bool) (l : List Val) (ht : ∀ v ∈ l, HasTy one (.strct 1) v) (h : ∀ v ∈ l, Readable one (.strct 1) v) :
    Readable one (.strct 1) (book b l) := by
  refine C35_struct one 1 _ (book_ty b l ht) ?_ ?_ ?_ ?_
  · intro f hf
    simp [one, env, bookFields] at hf
    rcases hf with rfl | rfl <;> rfl
  · intro f hf e
    simp [one, env, bookFields] at hf
    rcases hf with rfl | rfl <;> simp
  · intro p f v o t hf hv hk
    rcases p with _ | _ | p <;> simp [one, env, bookFields] at hf hv <;> subst hf <;> simp at hk
  · intro p f s v w hf hv hk hw
    rcases p with _ | _ | p <;> simp [one, env, bookFields] at hf hv <;> subst hf <;> subst hv <;> simp at hk <;> subst hk <;>
      simp [valuesOf] at hw
    · subst hw; exact C35_bool _ _
    · exact h w hw

theorem lib_readable : Readable one (.strct 0) lib := by
  have t0 : ∀ b, HasTy one (.strct 1) (book b []) := fun b => book_ty b [] (by simp)
  have h0 : ∀ b, Readable one (.strct 1) (book b []) := fun b => book_readable b [] (by simp) (by simp)
  refine .strct rfl ?_ ?_ ?_ ?_
  · intro p f v o t hf hv hk
    rcases p with _ | _ | _ | _ | _ | _ | p <;> simp [one, env, libFields] at hf hv <;> subst hf <;> subst hv <;> simp at hk <;>
      obtain ⟨rfl, rfl⟩ := hk
    · exact ⟨_, rfl, rfl⟩
    · exact ⟨_, rfl, rfl⟩
  · intro p f s v hf hv hk
    rcases p with _ | _ | _ | _ | _ | _ | p <;> simp [one, env, libFields] at hf hv <;> subst hf <;> subst hv <;> simp at hk <;> subst hk <;>
      simp [CardOk, valuesOf, slotAbsent]
  · intro p f s v w hf hv hk hw
    rcases p with _ | _ | _ | _ | _ | _ | p <;> simp [one, env, libFields] at hf hv <;> subst hf <;> subst hv <;> simp at hk <;> subst hk <;>
      simp [valuesOf] at hw
    · subst hw; exact (C35_string _ _).mpr (by decide)
    · rcases hw with rfl | rfl
      · exact book_readable _ _ (by simpa using t0 false) (by simpa using h0 false)
      · exact h0 false
  · intro p f e v hf hv hk
    rcases p with _ | _ | _ | _ | _ | _ | p <;> simp [one, env, libFields] at hf hv <;> subst hf <;> subst hv <;> simp at hk
    subst hk
    refine .payload (w := kinds[1]) (s := { card := .many, ty := .strct 1 }) rfl rfl ⟨_, rfl⟩ (by simp [valuesOf]) ?_
    simp only [valuesOf, List.mem_singleton, forall_eq]
    exact h0 true

end ExR

/-- Concrete instance of `C35_roundtrip_partial`: nested structs, a namespaced attribute, a flattened enum with a `Vec`. -/
example : ∃ s, serializeVal true (fun _ _ => none) ExR.one ExS.libName (.strct 0) ExR.lib = .ok (s, .ok ()) ∧ (∃ d, ReadsBack s.out d) ∧
    ∀ d, ReadsBack s.out d → readTy true ExR.one (.strct 0) d.input = .ok (.ok ExR.lib) :=
  C35_roundtrip_partial true true ExR.one ExR.one_declared ExR.one_ok ExR.one_flatten ExS.libName (.strct 0)
    (.inr (.inl (by simp [ExS.libName, urls, declaredNs, ExR.one, ExR.env]))) ExR.lib ExR.lib_ty
    (rootPlainFree_of (.inr ⟨ExR.one_named, by decide⟩) ExR.lib_ty) ExR.lib_readable

/-- Concrete instance of `C35_two_flattens_never`. -/
example : ∃ s, serializeVal true (fun _ _ => none) ExR.env { ns := "urn:x", loc := "Two" } (.strct 2) (.strct [.enm 0 none, .enm 1 none]) = .ok (s, .ok ()) ∧
    ∀ d, ReadsBack s.out d → readTy true ExR.env (.strct 2) d.input ≠ .ok (.ok (.strct [.enm 0 none, .enm 1 none])) := by
  have hty : HasTy ExR.env (.strct 2) (.strct [.enm 0 none, .enm 1 none]) := by
    refine .strct rfl ?_ ?_ ?_
    · intro p f v hf hv
      rcases p with _ | _ | p <;> simp [ExR.env, ExR.twoFields] at hf hv <;> subst hf <;> subst hv <;> trivial
    · intro p f s v w hf hv hk hw
      rcases p with _ | _ | p <;> simp [ExR.env, ExR.twoFields] at hf hv <;> subst hf <;> simp at hk
    · intro p f e v hf hv hk
      rcases p with _ | _ | p <;> simp [ExR.env, ExR.twoFields] at hf hv <;> subst hf <;> subst hv <;> simp at hk <;> subst hk <;>
        exact .unit rfl rfl
  have hn : ElemNsOk (urls (declaredNs ExR.env (.strct 2))) { ns := "urn:x", loc := "Two" } :=
    .inr (.inl (by simp [urls, declaredNs, ExR.env]))
  have hpf : RootPlainFree ExR.env { ns := "urn:x", loc := "Two" } (.strct 2) (.strct [.enm 0 none, .enm 1 none]) :=
    rootPlainFree_of (.inr ⟨ExR.env_named, by decide⟩) hty
  obtain ⟨as, g, h⟩ := represents_exists hty { ns := "urn:x", loc := "Two" }
  obtain ⟨s, r, h1, -, h3⟩ := C32_document_partial true (fun _ _ => none) ExR.env ExR.env_declared ExR.env_ok.attrs _ _ hn _ as g h hpf
  have hr' := h3 fun _ _ => rfl
  subst hr'
  refine ⟨s, h1, fun d hd => C35_two_flattens_never true true _ ExR.env ExR.env_declared ExR.env_ok 2 0 1 _ _ 0 1 rfl rfl rfl rfl
    (by decide) (by omega) ?_ _ hn _ hty hpf s h1 d hd⟩
  intro w hw f hf s hk
  simp [ExR.env, ExR.twoFields] at hf
  rcases hf with rfl | rfl <;> simp at hk

/-! ### Values that are not read back -/

/-- C35 is false of the code: a `String` of white space is not read back. -/
theorem C35_blank_counterexample (env : Env) (s : String) (hb : Blank s) (hs : s ≠ "") :
    HasTy env (.text .string) (.text (.str s)) ∧ ¬ Readable env (.text .string) (.text (.str s)) :=
  ⟨.text rfl, fun h => hs ((C35_string env s).mp h hb)⟩

example : Blank " \n" ∧ " \n" ≠ "" := by decide

/-- C35 is false of the code: `None` in a field with a default other than `None` is not read back. -/
theorem C35_default_counterexample (env : Env) (i p : Nat) (f : Field) (ty : Ty) (w : Val) (vs : List Val)
    (hf : (env.strct i).fields[p]? = some f) (hk : f.kind = .element { card := .opt, ty }) (hd : f.default = some w) (hw : w ≠ .opt none)
    (hv : vs[p]? = some (.opt none)) : ¬ Readable env (.strct i) (.strct vs) := by
  intro h
  cases h with
  | strct len attrs card elems flats =>
    have := (card p f _ _ hf hv hk).2 (by simp [valuesOf])
    rw [hd] at this
    simp at this
    exact hw this

example : (ExR.env.strct 3).fields[0]? = some ExR.optFields[0] ∧ HasTy ExR.env (.strct 3) (.strct [.opt none, ExS.str "x"]) := by
  refine ⟨rfl, .strct rfl ?_ ?_ ?_⟩
  · intro p f v hf hv
    rcases p with _ | _ | p <;> simp [ExR.env, ExR.optFields] at hf hv <;> subst hf <;> subst hv <;> simp [Shape, CardOk]
  · intro p f s v w hf hv hk hw
    rcases p with _ | _ | p <;> simp [ExR.env, ExR.optFields] at hf hv <;> subst hf <;> subst hv <;> simp at hk <;> subst hk <;>
      simp [valuesOf] at hw
    subst hw; exact .text rfl
  · intro p f e v hf hv hk
    rcases p with _ | _ | p <;> simp [ExR.env, ExR.optFields] at hf hv <;> subst hf <;> simp at hk

/-- C35 is false of the code: an enum variant with an empty `Vec` or `None` is written as nothing and not read back. -/
theorem C35_empty_payload_counterexample (env : Env) (i j : Nat) (w : Variant) (s : Slot) (p : Val)
    (hw : (env.enm i).variants[j]? = some w) (hs : w.slot = some s) (hp : valuesOf s.card p = []) :
    ¬ Readable env (.enm i) (.enm j (some p)) := by
  intro h
  cases h with
  | payload hv hs' card ne items =>
    rw [hw] at hv
    cases hv
    rw [hs] at hs'
    cases hs'
    exact ne hp

example : (ExR.env.enm 0).variants[1]? = some ExR.kinds[1] ∧ HasTy ExR.env (.enm 0) (.enm 1 (some (.vec []))) :=
  ⟨rfl, .payload (w := ExR.kinds[1]) rfl rfl ⟨[], rfl⟩ (by simp [valuesOf, ExR.kinds])⟩

/-! ## C36 -/

/-- C36: what is read back does not depend on how the same output is laid out, i.e. where the parser reports white space (or
comments) between tags: values and failures are the same.  This holds for every output of the writer and every type. -/
theorem C36_layout (dbg dbg' : Bool) (env : Env) (hok : EnvOk env) (ty : Ty) (out : List WEvent) (d d' : Doc) (hd : ReadsBack out d)
    (hd' : ReadsBack out d') :
    (∀ v, readTy dbg env ty d.input = .ok (.ok v) ↔ readTy dbg' env ty d'.input = .ok (.ok v)) ∧
    ((∃ E, readTy dbg env ty d.input = .ok (.error E)) ↔ ∃ E, readTy dbg' env ty d'.input = .ok (.error E)) := by
  obtain ⟨n, as, g, h1, h2, h3, h4⟩ := hd
  obtain ⟨-, h6, h7⟩ := readsBack_content h1 hd'
  have key : bodyValue env (d.root.body env) ty = bodyValue env (d'.root.body env) ty := readsBack_value h3 h4 h6 h7 ty
  have hval : ∀ v, readTy dbg env ty d.input = .ok (.ok v) ↔ readTy dbg' env ty d'.input = .ok (.ok v) := by
    intro v
    rw [C18_value dbg env hok, C18_value dbg' env hok, key]
  refine ⟨hval, ?_⟩
  constructor
  · rintro ⟨E, hE⟩
    cases hb : bodyValue env (d'.root.body env) ty with
    | none => exact readTy_none dbg' env hok ty d' hb
    | some v =>
      rw [← C18_value dbg' env hok, ← hval, hE] at hb
      cases hb
  · rintro ⟨E, hE⟩
    cases hb : bodyValue env (d.root.body env) ty with
    | none => exact readTy_none dbg env hok ty d hb
    | some v =>
      rw [← C18_value dbg env hok, hval, hE] at hb
      cases hb

example (out : List WEvent) := C36_layout true false ExR.env ExR.env_ok (.strct 0) out

/-- Inserting white space (or a comment, or a processing instruction) somewhere in some content. -/
inductive Spec.Inserted : Forest → Forest → Prop where
  | here {m : Misc} {pos : Pos} {F : Forest} : Inserted F (.misc m pos F)
  | child {n : QName} {a : List XAttr} {ns : NsMap} {p ep : Pos} {c c' r : Forest} (h : Inserted c c') : Inserted (.elem n a ns p c ep r) (.elem n a ns p c' ep r)
  | after {n : QName} {a : List XAttr} {ns : NsMap} {p ep : Pos} {c r r' : Forest} (h : Inserted r r') : Inserted (.elem n a ns p c ep r) (.elem n a ns p c ep r')
  | chars {s : String} {cd : Bool} {p : Pos} {r r' : Forest} (h : Inserted r r') : Inserted (.chars s cd p r) (.chars s cd p r')
  | misc {m : Misc} {p : Pos} {r r' : Forest} (h : Inserted r r') : Inserted (.misc m p r) (.misc m p r')

/-- C36: a document stays a report of the same output when white space is inserted between its tags. -/
theorem C36_inserted {f : EForest} {F F' : Forest} (hF : Denotes f F) (h : Inserted F F') : Denotes f F' := by
  induction hF generalizing F' with
  | nil => cases h with | here => exact .misc .nil
  | elem hn ha hc hr ihc ihr =>
    cases h with
    | here => exact .misc (.elem hn ha hc hr)
    | child h => exact .elem hn ha (ihc h) hr
    | after h => exact .elem hn ha hc (ihr h)
  | chars hs hr ih =>
    cases h with
    | here => exact .misc (.chars hs hr)
    | chars h => exact .chars hs (ih h)
  | blank hs hr ih => exact .blank hs (ih h)
  | misc h' ih =>
    cases h with
    | here => exact .misc (.misc h')
    | misc h => exact .misc (ih h)

/-- Concrete instance: white space around the children of the root, and a comment in one of them. -/
example : Denotes (.elem { ns := "", loc := "a" } [] (.chars "x" .nil) .nil)
    (.misc (.whitespace "\n  ") ⟨0, 0⟩ (.elem { loc := "a", ns := none, pfx := none } [] [] ⟨0, 0⟩
      (.misc (.comment "c") ⟨0, 0⟩ (.chars "x" false ⟨0, 0⟩ .nil)) ⟨0, 0⟩ (.misc (.whitespace "\n") ⟨0, 0⟩ .nil))) :=
  .misc (.elem rfl rfl (.misc (.chars (by decide) .nil)) (.misc .nil))

end SX
