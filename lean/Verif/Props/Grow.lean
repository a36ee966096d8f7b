import Verif.Proof.Grow
import Verif.Props.Expanded
import Verif.Props.Singly

/-
C89: a set of derived types, recursive and with flattened enums, can grow: the new version of a program reads the documents of the old one.
-/
namespace SX
open Spec

/-- C89: whatever document the old version reads, the new one reads, as the corresponding value; provided nothing in the document has one of the names
that are new. -/
theorem C89_grown (dbg dbg' : Bool) (N M : EName → Prop) (env env' : Env) (hok : EnvOk env) (hok' : EnvOk env') (hg : Grown N M env env') (ty ty' : Ty)
    (hty : TyGrown ty ty') (d : Doc) (hd : DocAvoids N M d) (v : Val) (hr : readTy dbg env ty d.input = .ok (.ok v)) :
    ∃ v', readTy dbg' env' ty' d.input = .ok (.ok v') ∧ ValGrown N M env env' ty ty' v v' := by
  rw [C18_value dbg env hok] at hr
  obtain ⟨v', h1, h2⟩ := Grow.bodyValue_grow hok hok' hg (b := d.root.body env) (b' := d.root.body env') (Grow.kids_grow hok hok' hg _ hd.2) rfl rfl hd.1 hty hr
  exact ⟨v', (C18_value dbg' env' hok' ty' d v').mpr h1, h2⟩

/-- C89: it reads whatever the old version writes: the value that corresponds.  Here the names are new if no declaration of the old version uses them. -/
theorem C89_written (dbg dbg' : Bool) (N M : EName → Prop) (env env' : Env) (henv : NamesDeclared env) (hok : EnvOk env) (hfl : FlattenOk env) (hok' : EnvOk env')
    (hN : NewNames env N M) (hg : Grown N M env env') (name : EName) (ty ty' : Ty) (hty : TyGrown ty ty') (hn : ElemNsOk (urls (declaredNs env ty)) name)
    (v : Val) (hv : HasTy env ty v) (hpf : RootPlainFree env name ty v) (hr : Readable env ty v) :
    ∃ s, serializeVal dbg (fun _ _ => none) env name ty v = .ok (s, .ok ()) ∧ (∃ d, Transported s.out d) ∧
      ∀ d, Transported s.out d → ∃ v', readTy dbg' env' ty' d.input = .ok (.ok v') ∧ ValGrown N M env env' ty ty' v v' := by
  obtain ⟨s, h1, h2, h3⟩ := C35_transported_partial dbg dbg' env henv hok hfl name ty hn v hv hpf hr
  refine ⟨s, h1, h2, fun d hd => C89_grown dbg' dbg' N M env env' hok hok' hg ty ty' hty d ?_ v (h3 d hd)⟩
  obtain ⟨as, g, h⟩ := represents_exists hv name
  obtain ⟨s', r, h1', h4, -⟩ := C32_document_partial dbg (fun _ _ => none) env henv (envOk_distinct hok) name ty hn v as g h hpf
  rw [h1] at h1'
  cases h1'
  have h5 := h4 rfl
  obtain ⟨-, h6, h7⟩ := readsBack_content h5 (C43_document _ d hd (by rw [h5]; rfl))
  obtain ⟨h8, h9⟩ := Grow.represents_avoids hN h
  exact ⟨fun x hx => h8 (x.name.expanded, x.value) (h6 ▸ List.mem_map.mpr ⟨x, hx, rfl⟩), Grow.denotes_avoids h7 h9⟩

/-- C89, for every set of types: the same of every value that the old version itself reads back (C35_exact_partial). -/
theorem C89_written_faithful (dbg dbg' : Bool) (sink : Sink) (hsink : ∀ out e, sink out e = none) (N M : EName → Prop) (env env' : Env) (henv : NamesDeclared env)
    (hok : EnvOk env) (hok' : EnvOk env') (hN : NewNames env N M) (hg : Grown N M env env') (name : EName) (ty ty' : Ty) (hty : TyGrown ty ty')
    (hn : ElemNsOk (urls (declaredNs env ty)) name) (v : Val) (hv : HasTy env ty v) (hpw : NoPlainWithin env false [] [{ name, value := some (ty, v) }])
    (hf : Faithful env ty v) :
    ∃ s, serializeVal dbg sink env name ty v = .ok (s, .ok ()) ∧ (∃ d, Transported s.out d) ∧
      ∀ d, Transported s.out d → ∃ v', readTy dbg' env' ty' d.input = .ok (.ok v') ∧ ValGrown N M env env' ty ty' v v' := by
  obtain ⟨s, h1, h2, h3⟩ := C35_exact_partial dbg dbg' sink hsink env henv hok name ty hn v hv hpw
  refine ⟨s, h1, h2, fun d hd => C89_grown dbg' dbg' N M env env' hok hok' hg ty ty' hty d ?_ v ((h3 d hd).mpr hf)⟩
  obtain ⟨as, g, h⟩ := represents_exists hv name
  obtain ⟨s', h1', h5⟩ := (C32_document_iff dbg sink hsink env henv (envOk_distinct hok) name ty hn v as g h).mpr hpw
  rw [h1] at h1'
  cases h1'
  obtain ⟨-, h6, h7⟩ := readsBack_content h5 (C43_document _ d hd (by rw [h5]; rfl))
  obtain ⟨h8, h9⟩ := Grow.represents_avoids hN h
  exact ⟨fun x hx => h8 (x.name.expanded, x.value) (h6 ▸ List.mem_map.mpr ⟨x, hx, rfl⟩), Grow.denotes_avoids h7 h9⟩

/-! ### An example: a struct with a flattened enum -/

namespace ExG
open Ex

/-- ```
struct Rec { title: Option<String>, #[default] rev: String, note: Vec<String>, tag: Vec<String>, #[attribute] id: Option<String>,
             #[attribute] lang: Option<String>, #[flatten] choice: Choice }
struct Sub { }
``` -/
def recFields : List Field :=
  [{ name := du "title", kind := .element { card := .opt, ty := .text .string }, default := none },
   { name := dn "rev", kind := .element str, default := some (.text (.str "1")) },
   { name := dn "note", kind := .element { card := .many, ty := .text .string }, default := none },
   { name := dn "tag", kind := .element { card := .many, ty := .text .string }, default := none },
   { name := dn "id", kind := .attribute true .string, default := none },
   { name := dn "lang", kind := .attribute true .string, default := none },
   { name := dn "choice", kind := .flatten 0, default := none }]

/-- `enum Choice { A, D, B(Vec<Sub>), C(Vec<String>) }` -/
def choice : List Variant :=
  [{ name := dn "a", slot := none, skip := false },
   { name := dn "d", slot := none, skip := false },
   { name := dn "b", slot := some { card := .many, ty := .strct 1 }, skip := false },
   { name := dn "c", slot := some { card := .many, ty := .text .string }, skip := false }]

def env : Env where
  strct i := { root := dn "r", namespaces := [], fields := match i with
    | 0 => recFields
    | 2 => twoFields
    | _ => [] }
  enm i := { ident := if i = 0 then "Choice" else "Other", root := dn "r", namespaces := [], variants := match i with
    | 0 => choice
    | 1 => other
    | _ => [] }

def N (n : EName) : Prop := n = ⟨"", "rev"⟩ ∨ n = ⟨"", "d"⟩
def M (n : EName) : Prop := n = ⟨"", "lang"⟩

theorem env_ok : EnvOk env where
  elems := by
    intro i p q f g s s' hf hg hk hk' hn
    simp only [env] at hf hg
    split at hf
    · rcases p with _ | _ | _ | _ | _ | _ | _ | p <;> rcases q with _ | _ | _ | _ | _ | _ | _ | q <;> simp_all [recFields] <;> subst hf <;>
        subst hg <;> simp_all [DName.expanded, dn, du]
    · rcases p with _ | _ | p <;> rcases q with _ | _ | q <;> simp_all [twoFields] <;> subst hf <;> subst hg <;> simp_all
    · simp at hf
  attrs := by
    intro i p q f g o t o' t' hf hg hk hk' hn
    simp only [env] at hf hg
    split at hf
    · rcases p with _ | _ | _ | _ | _ | _ | _ | p <;> rcases q with _ | _ | _ | _ | _ | _ | _ | q <;> simp_all [recFields] <;> subst hf <;>
        subst hg <;> simp_all [DName.expanded, dn, du]
    · rcases p with _ | _ | p <;> rcases q with _ | _ | q <;> simp_all [twoFields] <;> subst hf <;> subst hg <;> simp_all
    · simp at hf
  noText := by
    intro i f t hf hk
    simp only [env] at hf
    split at hf
    · simp only [recFields, List.mem_cons, List.not_mem_nil, or_false] at hf
      rcases hf with rfl | rfl | rfl | rfl | rfl | rfl | rfl <;> simp at hk
    · simp only [twoFields, List.mem_cons, List.not_mem_nil, or_false] at hf
      rcases hf with rfl | rfl <;> simp at hk
    · simp at hf
  variants := by
    intro i p q v w hv hw hn
    simp only [env] at hv hw
    split at hv
    · rcases p with _ | _ | _ | _ | p <;> rcases q with _ | _ | _ | _ | q <;> simp_all [choice] <;> subst hv <;> subst hw <;>
        simp_all [DName.expanded, dn]
    · rcases p with _ | _ | p <;> rcases q with _ | _ | q <;> simp_all [other] <;> subst hv <;> subst hw <;>
        simp_all [DName.expanded, dn]
    · simp at hv
  noneFirst := by
    intro i d hd e he h1 h2
    simp only [env, List.mem_map] at he
    obtain ⟨v, hv, rfl⟩ := he
    split at hv
    · simp only [choice, List.mem_cons, List.not_mem_nil, or_false] at hv
      rcases hv with rfl | rfl | rfl | rfl <;> simp [dn] at h2
    · simp only [other, List.mem_cons, List.not_mem_nil, or_false] at hv
      rcases hv with rfl | rfl <;> simp [dn] at h2
    · simp at hv
  noSkip := by
    intro i v hv
    simp only [env] at hv
    split at hv
    · simp only [choice, List.mem_cons, List.not_mem_nil, or_false] at hv
      rcases hv with rfl | rfl | rfl | rfl <;> rfl
    · simp only [other, List.mem_cons, List.not_mem_nil, or_false] at hv
      rcases hv with rfl | rfl <;> rfl
    · simp at hv

theorem grown : Grown N M Ex.env env where
  structs := by
    intro i
    match i with
    | 0 =>
      refine .kept ⟨rfl, ⟨by simp [str], .text (Grow.textGrown_refl _)⟩, by simp [absentOf, slotOf, slotAbsent]⟩ ?_
      refine .added (.inl rfl) rfl ?_
      refine .kept ⟨rfl, ⟨by simp, .text (Grow.textGrown_refl _)⟩, by simp [absentOf, slotOf, slotAbsent]⟩ ?_
      refine .kept ⟨rfl, ⟨by simp, .text (Grow.textGrown_refl _)⟩, by simp [absentOf, slotOf, slotAbsent]⟩ ?_
      refine .kept ⟨rfl, Grow.textGrown_refl _, by simp [absentOf, slotOf, slotAbsent]⟩ ?_
      refine .added rfl rfl ?_
      exact .kept rfl .nil
    | 1 => exact .removedElement rfl rfl .nil
    | 2 => exact .kept rfl (.kept rfl .nil)
    | n + 3 => exact .nil
  enums := by
    intro i
    match i with
    | 0 =>
      refine .unit rfl rfl rfl rfl ?_
      refine .added (.inr rfl) ?_
      refine .payload rfl rfl rfl rfl ⟨by simp, .strct 1⟩ ?_
      exact .payload rfl rfl rfl rfl ⟨fun _ => rfl, .text (Grow.textGrown_refl _)⟩ .nil
    | 1 => exact .unit rfl rfl rfl rfl (.unit rfl rfl rfl rfl .nil)
    | n + 2 => exact .nil

theorem newNames : NewNames Ex.env N M where
  elems := by
    intro i f s hf hk
    simp only [Ex.env] at hf
    split at hf
    · simp only [Ex.recFields, List.mem_cons, List.not_mem_nil, or_false] at hf
      rcases hf with rfl | rfl | rfl | rfl | rfl <;> simp [N, DName.expanded, dn, du]
    · simp only [subFields, List.mem_cons, List.not_mem_nil, or_false] at hf
      subst hf; simp [N, DName.expanded, dn]
    · simp only [twoFields, List.mem_cons, List.not_mem_nil, or_false] at hf
      rcases hf with rfl | rfl <;> simp at hk
    · simp at hf
  attrs := by
    intro i f o t hf hk
    simp only [Ex.env] at hf
    split at hf
    · simp only [Ex.recFields, List.mem_cons, List.not_mem_nil, or_false] at hf
      rcases hf with rfl | rfl | rfl | rfl | rfl <;> simp [M, DName.expanded, dn, du]
    · simp only [subFields, List.mem_cons, List.not_mem_nil, or_false] at hf
      subst hf; simp at hk
    · simp only [twoFields, List.mem_cons, List.not_mem_nil, or_false] at hf
      rcases hf with rfl | rfl <;> simp at hk
    · simp at hf
  variants := by
    intro i w hw
    simp only [Ex.env] at hw
    split at hw
    · simp only [Ex.choice, List.mem_cons, List.not_mem_nil, or_false] at hw
      rcases hw with rfl | rfl | rfl <;> simp [N, DName.expanded, dn]
    · simp only [other, List.mem_cons, List.not_mem_nil, or_false] at hw
      rcases hw with rfl | rfl <;> simp [N, DName.expanded, dn]
    · simp at hw

/-- The document that the old version reads: the new one reads it, with the new fields empty and `c` the fourth variant. -/
example : DocAvoids N M recDoc ∧ readTy true Ex.env (.strct 0) recDoc.input = .ok (.ok recVal) ∧
    readTy true env (.strct 0) recDoc.input = .ok (.ok (.strct [.opt (some (.text (.str "T"))), .text (.str "1"), .vec [],
      .vec [.text (.str "1"), .text (.str "2")], .opt (some (.text (.str "7"))), .opt none, .enm 3 (some (.vec [.text (.str "x"), .text (.str "y")]))])) :=
  ⟨by simp [DocAvoids, Avoids, recDoc, docOf, leaf, empt, N, M, QName.expanded, q, qp], recDoc_read, rfl⟩

/-- An element that the old version ignores can be one too much for the new one: the names must be new to the documents. -/
example : readTy true Ex.env (.strct 0) (docOf [{ name := q "id", value := "7" }] (leaf (qp "u" "title") "T" (empt (q "d") (empt (q "a") .nil)))).input =
      .ok (.ok (.strct [.text (.str "T"), .opt none, .vec [], .text (.str "7"), .enm 0 none])) ∧
    ¬ ∃ v, readTy true env (.strct 0) (docOf [{ name := q "id", value := "7" }] (leaf (qp "u" "title") "T" (empt (q "d") (empt (q "a") .nil)))).input = .ok (.ok v) :=
  ⟨rfl, fun ⟨v, h⟩ => by
    rw [C18_value true env env_ok] at h
    cases h⟩

/-- The types of C35's example, where books get a language and lose everything else. -/
def later : Env where
  strct i := if i = 1 then { ExR.one.strct 1 with fields := [{ name := dn "lang", kind := .attribute true .string, default := none }] } else ExR.one.strct i
  enm := ExR.one.enm

theorem later_strct (i : Nat) : (later.strct i).fields = [{ name := dn "lang", kind := .attribute true .string, default := none }] ∧ i = 1 ∨ later.strct i = ExR.one.strct i ∧ i ≠ 1 := by
  simp only [later]
  split
  · exact .inl ⟨rfl, by assumption⟩
  · exact .inr ⟨rfl, by assumption⟩

theorem later_ok : EnvOk later where
  elems := by
    intro i
    rcases later_strct i with ⟨h, -⟩ | ⟨h, -⟩
    · rw [h]
      intro p q f g s s' hf hg hk hk' hn
      rcases p with _ | p <;> simp at hf
      subst hf
      simp at hk
    · rw [h]; exact ExR.one_ok.elems i
  attrs := by
    intro i
    rcases later_strct i with ⟨h, -⟩ | ⟨h, -⟩
    · rw [h]
      intro p q f g o t o' t' hf hg hk hk' hn
      rcases p with _ | p <;> rcases q with _ | q <;> simp at hf hg
      rfl
    · rw [h]; exact ExR.one_ok.attrs i
  noText := by
    intro i
    rcases later_strct i with ⟨h, -⟩ | ⟨h, -⟩
    · rw [h]
      intro f t hf hk
      simp only [List.mem_singleton] at hf
      subst hf
      simp at hk
    · rw [h]; exact ExR.one_ok.noText i
  variants := ExR.one_ok.variants
  noneFirst := ExR.one_ok.noneFirst
  noSkip := ExR.one_ok.noSkip

theorem later_grown : Grown (fun _ => False) M ExR.one later where
  structs := by
    intro i
    rcases later_strct i with ⟨h, rfl⟩ | ⟨h, -⟩
    · rw [h]
      exact .added rfl rfl (.removedElement rfl rfl (.removedElement rfl rfl .nil))
    · rw [h]; exact Grow.fieldsGrown_refl _ _ fun f hf t => ExR.one_ok.noText i f t hf
  enums i := Grow.variantsGrown_refl _

theorem later_newNames : NewNames ExR.one (fun _ => False) M where
  elems := fun _ _ _ _ _ => id
  attrs := by
    intro i f o t hf hk
    have : ∀ j, f ∈ (ExR.env.strct j).fields → ¬ M f.name.expanded := by
      intro j hf
      simp only [ExR.env] at hf
      split at hf <;> simp only [ExS.libFields, ExS.bookFields, ExR.twoFields, ExR.optFields, List.mem_cons, List.not_mem_nil, or_false] at hf
      · rcases hf with rfl | rfl | rfl | rfl | rfl | rfl <;> simp [ExS.nd, ExS.nn, ExS.nx, DName.expanded, M] at hk ⊢
      all_goals rcases hf with rfl | rfl <;> simp at hk
    exact this _ hf
  variants := fun _ _ _ => id

/-- What the old version of C35's example writes, the new one reads. -/
example : ∃ s, serializeVal true (fun _ _ => none) ExR.one ExS.libName (.strct 0) ExR.lib = .ok (s, .ok ()) ∧ (∃ d, Transported s.out d) ∧
    ∀ d, Transported s.out d → ∃ v', readTy true later (.strct 0) d.input = .ok (.ok v') ∧ ValGrown (fun _ => False) M ExR.one later (.strct 0) (.strct 0) ExR.lib v' :=
  C89_written true true _ _ ExR.one later ExR.one_declared ExR.one_ok ExR.one_flatten later_ok later_newNames later_grown ExS.libName (.strct 0) (.strct 0) (.strct 0)
    (.inr (.inl (by simp [ExS.libName, urls, declaredNs, ExR.one, ExR.env]))) ExR.lib ExR.lib_ty
    (rootPlainFree_of (.inr ⟨ExR.one_named, by decide⟩) ExR.lib_ty) ExR.lib_readable

example := C89_written_faithful true true _ (fun _ _ => rfl) _ _ ExR.one later ExR.one_declared ExR.one_ok later_ok later_newNames later_grown ExS.libName (.strct 0) (.strct 0)
  (.strct 0) (.inr (.inl (by simp [ExS.libName, urls, declaredNs, ExR.one, ExR.env]))) ExR.lib ExR.lib_ty
  (noPlainWithin_of ExR.one_declared ExR.one_ok (.inr ⟨ExR.one_named, by decide⟩) (.inr (.inl (by simp [ExS.libName, urls, declaredNs, ExR.one, ExR.env]))) ExR.lib_ty)
  ((Faith.faithful_readable ExR.one_flatten).mpr ExR.lib_readable)

end ExG

end SX
