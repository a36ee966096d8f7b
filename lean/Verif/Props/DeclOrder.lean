import Verif.Proof.DeclOrderErr
import Verif.Props.Expanded
import Verif.Props.Singly

/-
C94: the order of declarations.
-/
namespace SX
open Spec DeclOrder

/-- C94: types whose fields and variants are declared in another order read the same documents, as the same values; and fail for the others, at the same place and for the same
reason, except that where several things are missing in one element another one may be named. -/
theorem C94_read (dbg dbg' : Bool) (m : Places) (env env' : Env) (hok : EnvOk env) (hok' : EnvOk env') (hr : Reordered m env env') (ty : Ty) (d : Doc) :
    (∃ v v', readTy dbg env ty d.input = .ok (.ok v) ∧ readTy dbg' env' ty d.input = .ok (.ok v') ∧ SameVal m env env' ty v v') ∨
    (∃ E E', readTy dbg env ty d.input = .ok (.error E) ∧ readTy dbg' env' ty d.input = .ok (.error E') ∧ SameError E E') := by
  have hk := kidsErr_rel hok hok' hr d.root.children
  have h1 := DeclOrder.bodyValue_rel hok hok' hr (b := d.root.body env) (b' := d.root.body env') hk.kids rfl rfl ty
  have h2 := DeclOrder.bodyErr_rel hok hok' hr (b := d.root.body env) (b' := d.root.body env') hk rfl rfl ty (C44_complete env hok ty d) (C44_complete env' hok' ty d)
  have hc := C44_complete env hok ty d
  cases hv : bodyValue env (d.root.body env) ty with
  | some v =>
    rw [hv] at h1
    generalize hv' : bodyValue env' (d.root.body env') ty = o at h1
    cases h1 with
    | some h => exact .inl ⟨_, _, (C18_value _ _ hok ..).mpr hv, (C18_value _ _ hok' ..).mpr hv', h⟩
  | none =>
    generalize he : bodyErr env (d.root.body env) ty = o at h2 hc
    generalize he' : bodyErr env' (d.root.body env') ty = o' at h2
    cases h2 with
    | none => exact absurd hv (hc.mp rfl)
    | some h =>
      refine .inr ⟨_, _, (C44_first dbg env hok ty d _).mpr ⟨_, he, rfl⟩, (C44_first dbg' env' hok' ty d _).mpr ⟨_, he', rfl⟩, ?_, ?_, h.kind⟩
      · simp only [reported, h.rel]
      · simp only [reported, h.rel, h.late]

/-- C94: to each value there is one of the other order at most. -/
theorem C94_one_to_one (m : Places) (env env' : Env) (hok : EnvOk env) (hok' : EnvOk env') (hr : Reordered m env env') (ty : Ty) (v w v' w' : Val)
    (h : SameVal m env env' ty v v') (h' : SameVal m env env' ty w w') : v = w ↔ v' = w' := by
  constructor
  · rintro rfl; exact same_right hok hok' hr h h'
  · rintro rfl; exact same_left hr h h'

/-- C94: what is written by one is read by the other: the same value, if the one itself reads it back (C35). -/
theorem C94_written (dbg dbg' : Bool) (sink : Sink) (hsink : ∀ out e, sink out e = none) (m : Places) (env env' : Env) (henv' : NamesDeclared env') (hok : EnvOk env)
    (hok' : EnvOk env') (hr : Reordered m env env') (name : EName) (ty : Ty) (hn : ElemNsOk (urls (declaredNs env' ty)) name) (v' : Val) (hv : HasTy env' ty v')
    (hpw : NoPlainWithin env' false [] [{ name, value := some (ty, v') }]) (hf : Faithful env' ty v') :
    ∃ s, serializeVal dbg sink env' name ty v' = .ok (s, .ok ()) ∧ (∃ d, Transported s.out d) ∧
      ∀ d, Transported s.out d → ∃ v, readTy dbg' env ty d.input = .ok (.ok v) ∧ SameVal m env env' ty v v' := by
  obtain ⟨s, h1, h2, h3⟩ := C35_exact_partial dbg dbg' sink hsink env' henv' hok' name ty hn v' hv hpw
  refine ⟨s, h1, h2, fun d hd => ?_⟩
  have hr' := (h3 d hd).mpr hf
  rcases C94_read dbg' dbg' m env env' hok hok' hr ty d with ⟨v, w, g1, g2, g3⟩ | ⟨E, E', -, g2, -⟩
  · rw [hr'] at g2
    cases g2
    exact ⟨v, g1, g3⟩
  · rw [hr'] at g2
    cases g2

/-! ### An example -/

namespace ExD
open Ex

/-- ```
struct Rec { #[flatten] choice: Choice, tag: Vec<String>, #[attribute] id: String, #[prefix = "u"] title: String, note: Option<String> }
``` -/
def recFields : List Field :=
  [{ name := dn "choice", kind := .flatten 0, default := none },
   { name := dn "tag", kind := .element { card := .many, ty := .text .string }, default := none },
   { name := dn "id", kind := .attribute false .string, default := none },
   { name := du "title", kind := .element str, default := none },
   { name := dn "note", kind := .element { card := .opt, ty := .text .string }, default := none }]

/-- `enum Choice { C(Vec<String>), A, B(Sub) }` -/
def choice : List Variant :=
  [{ name := dn "c", slot := some { card := .many, ty := .text .string }, skip := false },
   { name := dn "a", slot := none, skip := false },
   { name := dn "b", slot := some { card := .one, ty := .strct 1 }, skip := false }]

def env : Env where
  strct i := { root := dn "r", namespaces := [], fields := match i with
    | 0 => recFields
    | 1 => subFields
    | 2 => twoFields
    | _ => [] }
  enm i := { ident := if i = 0 then "Choice" else "Other", root := dn "r", namespaces := [], variants := match i with
    | 0 => choice
    | 1 => other
    | _ => [] }

theorem env_ok : EnvOk env where
  elems := by
    intro i p q f g s s' hf hg hk hk' hn
    simp only [env] at hf hg
    split at hf
    · rcases p with _ | _ | _ | _ | _ | p <;> rcases q with _ | _ | _ | _ | _ | q <;> simp_all [recFields] <;> subst hf <;>
        subst hg <;> simp_all [DName.expanded, dn, du]
    · rcases p with _ | p <;> rcases q with _ | q <;> simp_all [subFields]
    · rcases p with _ | _ | p <;> rcases q with _ | _ | q <;> simp_all [twoFields] <;> subst hf <;> subst hg <;> simp_all
    · simp at hf
  attrs := by
    intro i p q f g o t o' t' hf hg hk hk' hn
    simp only [env] at hf hg
    split at hf
    · rcases p with _ | _ | _ | _ | _ | p <;> rcases q with _ | _ | _ | _ | _ | q <;> simp_all [recFields] <;> subst hf <;>
        subst hg <;> simp_all [DName.expanded, dn, du]
    · rcases p with _ | p <;> rcases q with _ | q <;> simp_all [subFields]
    · rcases p with _ | _ | p <;> rcases q with _ | _ | q <;> simp_all [twoFields] <;> subst hf <;> subst hg <;> simp_all
    · simp at hf
  noText := by
    intro i f t hf hk
    simp only [env] at hf
    split at hf
    · simp only [recFields, List.mem_cons, List.not_mem_nil, or_false] at hf
      rcases hf with rfl | rfl | rfl | rfl | rfl <;> simp at hk
    · simp only [subFields, List.mem_cons, List.not_mem_nil, or_false] at hf
      subst hf; simp at hk
    · simp only [twoFields, List.mem_cons, List.not_mem_nil, or_false] at hf
      rcases hf with rfl | rfl <;> simp at hk
    · simp at hf
  variants := by
    intro i p q v w hv hw hn
    simp only [env] at hv hw
    split at hv
    · rcases p with _ | _ | _ | p <;> rcases q with _ | _ | _ | q <;> simp_all [choice] <;> subst hv <;> subst hw <;>
        simp_all [DName.expanded, dn]
    · rcases p with _ | _ | p <;> rcases q with _ | _ | q <;> simp_all [other] <;> subst hv <;> subst hw <;>
        simp_all [DName.expanded, dn]
    · simp at hv
  noneFirst := by
    intro i d hd e he h1 h2
    simp only [env, List.mem_map] at he
    obtain ⟨v, hv, rfl⟩ := he
    split at hv
    · simp only [choice, List.mem_cons, List.not_mem_nil, or_false] at hv
      rcases hv with rfl | rfl | rfl <;> simp [dn] at h2
    · simp only [other, List.mem_cons, List.not_mem_nil, or_false] at hv
      rcases hv with rfl | rfl <;> simp [dn] at h2
    · simp at hv
  noSkip := by
    intro i v hv
    simp only [env] at hv
    split at hv
    · simp only [choice, List.mem_cons, List.not_mem_nil, or_false] at hv
      rcases hv with rfl | rfl | rfl <;> rfl
    · simp only [other, List.mem_cons, List.not_mem_nil, or_false] at hv
      rcases hv with rfl | rfl <;> rfl
    · simp at hv

def places : Places where
  field i p := match i, p with
    | 0, 0 => 4
    | 0, 1 => 2
    | 0, 2 => 3
    | 0, 3 => 0
    | 0, 4 => 1
    | _, p => p
  variant i p := match i, p with
    | 0, 0 => 2
    | 0, 1 => 0
    | 0, 2 => 1
    | _, p => p

theorem same_fields (i : Nat) : (env.strct (i + 1)).fields = (Ex.env.strct (i + 1)).fields := by
  rcases i with _ | _ | i <;> rfl

theorem same_variants (i : Nat) : (env.enm (i + 1)).variants = (Ex.env.enm (i + 1)).variants := by
  rcases i with _ | i <;> rfl

theorem reordered : Reordered places Ex.env env where
  fields := by
    intro i p f' hf'
    rcases i with _ | i
    · rcases p with _ | _ | _ | _ | _ | p <;> simp [env, recFields] at hf' <;> subst hf' <;> exact ⟨_, rfl, fun _ => rfl, rfl, trivial⟩
    · have hp : places.field (i + 1) p = p := by simp [places]
      rw [hp, ← same_fields]
      refine ⟨f', hf', fun _ => rfl, rfl, ?_⟩
      have hd : f'.default = none := by
        rcases i with _ | _ | i
        · rcases p with _ | p <;> simp [env, subFields] at hf' <;> subst hf' <;> rfl
        · rcases p with _ | _ | p <;> simp [env, twoFields] at hf' <;> subst hf' <;> rfl
        · simp [env] at hf'
      rw [hd]
      trivial
  all := by
    intro i q hq
    rcases i with _ | i
    · rcases q with _ | _ | _ | _ | _ | q
      · exact ⟨3, by decide, rfl⟩
      · exact ⟨4, by decide, rfl⟩
      · exact ⟨1, by decide, rfl⟩
      · exact ⟨2, by decide, rfl⟩
      · exact ⟨0, by decide, rfl⟩
      · simp [Ex.env, Ex.recFields] at hq; omega
    · exact ⟨q, by rw [same_fields]; exact hq, by simp [places]⟩
  flattened := by
    intro i p q f g e e' hf hg hk hk' hpq
    rcases i with _ | i
    · rcases p with _ | _ | _ | _ | _ | p <;> rcases q with _ | _ | _ | _ | _ | q <;> simp [env, recFields] at hf hg <;> subst hf <;> subst hg <;> simp at hk hk' hpq
    · simpa [places] using hpq
  idents := fun _ => rfl
  variants := by
    intro i p w' hw
    rcases i with _ | i
    · rcases p with _ | _ | _ | p <;> simp [env, choice] at hw <;> subst hw <;> exact ⟨_, rfl, rfl, rfl⟩
    · have hp : places.variant (i + 1) p = p := by simp [places]
      exact ⟨w', by rw [hp, ← same_variants]; exact hw, rfl, rfl⟩
  allVariants := by
    intro i q hq
    rcases i with _ | i
    · rcases q with _ | _ | _ | q
      · exact ⟨1, by decide, rfl⟩
      · exact ⟨2, by decide, rfl⟩
      · exact ⟨0, by decide, rfl⟩
      · simp [Ex.env, Ex.choice] at hq; omega
    · exact ⟨q, by rw [same_variants]; exact hq, by simp [places]⟩

/-- The document of `Ex.recVal`: the same values, elsewhere. -/
example : readTy true env (.strct 0) recDoc.input = .ok (.ok (.strct [.enm 0 (some (.vec [.text (.str "x"), .text (.str "y")])),
    .vec [.text (.str "1"), .text (.str "2")], .text (.str "7"), .text (.str "T"), .opt none])) := rfl

/-- An empty document: one names the first field that is missing, the other the first of its own. -/
example : ∃ E E', readTy true Ex.env (.strct 0) (docOf [] .nil).input = .ok (.error E) ∧ readTy true env (.strct 0) (docOf [] .nil).input = .ok (.error E') ∧
    E.kind = .deserializer (.missingElement ⟨"urn:u", "title"⟩) ∧ E'.kind = .deserializer (.cantBeEmpty "Choice") ∧ SameError E E' :=
  ⟨_, _, rfl, rfl, rfl, rfl, rfl, rfl, .inr ⟨trivial, trivial⟩⟩

/-- `struct Two { #[flatten] second: Other, #[flatten] first: Choice }` -/
def swapped : Env where
  strct _ := { root := dn "r", namespaces := [], fields := [{ name := dn "second", kind := .flatten 1, default := none }, { name := dn "first", kind := .flatten 0, default := none }] }
  enm := Ex.env.enm

/-- Flattened fields must keep their order: `<r><x/><a/></r>` is read with one, but not with the other (where the field for `x` is asked first, has something and takes `a` as well, for
nothing). -/
theorem C94_flattened_order : ∃ d : Doc, (∃ v, readTy true Ex.env (.strct 2) d.input = .ok (.ok v)) ∧
    ∃ E, readTy true swapped (.strct 2) d.input = .ok (.error E) ∧ E.kind = .deserializer (.cantBeEmpty "Choice") :=
  ⟨docOf [] (empt (q "x") (empt (q "a") .nil)), ⟨_, rfl⟩, _, rfl, rfl⟩

/-! ### Written and read -/

def a : Field := { name := dn "a", kind := .element { card := .one, ty := .text .bool }, default := none }
def b : Field := { name := dn "b", kind := .element { card := .opt, ty := .text .bool }, default := some (.opt (some (.text (.bool true)))) }

/-- `struct S { a: bool, #[default] b: Option<bool> }` or with the fields in the other order. -/
def pair (l : List Field) : Env where
  strct _ := { root := dn "S", namespaces := [], fields := l }
  enm _ := { ident := "None", root := dn "None", namespaces := [], variants := [] }

theorem pair_ok (x y : Field) (h : (x = a ∧ y = b) ∨ (x = b ∧ y = a)) : EnvOk (pair [x, y]) where
  elems := by
    intro i p q f g s s' hf hg hk hk' hn
    rcases h with ⟨rfl, rfl⟩ | ⟨rfl, rfl⟩ <;> rcases p with _ | _ | p <;> rcases q with _ | _ | q <;> simp [pair] at hf hg <;> subst hf <;> subst hg <;>
      simp [a, b, dn, DName.expanded] at hn ⊢
  attrs := by
    intro i p q f g o t o' t' hf hg hk
    rcases h with ⟨rfl, rfl⟩ | ⟨rfl, rfl⟩ <;> rcases p with _ | _ | p <;> simp [pair] at hf <;> subst hf <;> simp [a, b] at hk
  noText := by
    intro i f t hf hk
    rcases h with ⟨rfl, rfl⟩ | ⟨rfl, rfl⟩ <;> simp [pair] at hf <;> rcases hf with rfl | rfl <;> simp [a, b] at hk
  variants := by simp [pair]
  noneFirst := by
    intro i d hd
    simp [pair] at hd
  noSkip := by simp [pair]

theorem pair_declared : NamesDeclared (pair [a, b]) where
  mappings := by
    intro ty x hx
    cases ty <;> simp [declaredNs, pair] at hx
  elems := by
    intro i f s hf hk
    simp [pair] at hf
    rcases hf with rfl | rfl <;> exact .inr (.inr rfl)
  attrs := by
    intro i f o t hf hk
    simp [pair] at hf
    rcases hf with rfl | rfl <;> simp [a, b] at hk
  variants := by simp [pair]

theorem pair_reordered : Reordered { field := fun _ p => 1 - p, variant := fun _ p => p } (pair [b, a]) (pair [a, b]) where
  fields := by
    intro i p f' hf
    rcases p with _ | _ | p <;> simp [pair] at hf <;> subst hf
    · exact ⟨_, rfl, fun _ => rfl, rfl, trivial⟩
    · exact ⟨_, rfl, fun _ => rfl, rfl, .element (.mk ⟨_, rfl⟩ ⟨_, rfl⟩ (.cons .text .nil))⟩
  all := by
    intro i q hq
    simp [pair] at hq ⊢
    exact ⟨1 - q, by omega, by omega⟩
  flattened := by
    intro i p q f g e e' hf hg hk
    rcases p with _ | _ | p <;> simp [pair] at hf <;> subst hf <;> simp [a, b] at hk
  idents := fun _ => rfl
  variants := by simp [pair]
  allVariants := by simp [pair]

/-- A program that has `b` first reads what one wrote that has `a` first. -/
example (x y : Bool) : ∃ s, serializeVal true (fun _ _ => none) (pair [a, b]) ⟨"", "S"⟩ (.strct 0) (.strct [.text (.bool x), .opt (some (.text (.bool y)))]) = .ok (s, .ok ()) ∧
    (∃ d, Transported s.out d) ∧
    ∀ d, Transported s.out d → readTy true (pair [b, a]) (.strct 0) d.input = .ok (.ok (.strct [.opt (some (.text (.bool y))), .text (.bool x)])) := by
  have hv : HasTy (pair [a, b]) (.strct 0) (.strct [.text (.bool x), .opt (some (.text (.bool y)))]) := by
    refine .strct rfl ?_ ?_ ?_
    · intro p f v hf hv
      rcases p with _ | _ | p <;> simp [pair] at hf hv <;> subst hf <;> subst hv
      · trivial
      · exact ⟨_, rfl⟩
    · intro p f s v w hf hv hk hw
      rcases p with _ | _ | p <;> simp [pair] at hf hv <;> subst hf <;> subst hv <;> simp [a, b] at hk <;> subst hk <;> simp [valuesOf] at hw <;> subst hw <;> exact .text rfl
    · intro p f e v hf hv hk
      rcases p with _ | _ | p <;> simp [pair] at hf <;> subst hf <;> simp [a, b] at hk
  have hbool : ∀ z, Faithful (pair [a, b]) (.text .bool) (.text (.bool z)) := by
    intro z
    cases z
    · exact .text (s := "false") rfl rfl
    · exact .text (s := "true") rfl rfl
  have hf : Faithful (pair [a, b]) (.strct 0) (.strct [.text (.bool x), .opt (some (.text (.bool y)))]) := by
    refine .strct rfl ?_ ?_ ?_ ?_ ?_
    · intro p f v o t hf hv hk
      rcases p with _ | _ | p <;> simp [pair] at hf <;> subst hf <;> simp [a, b] at hk
    · intro p f s v hf hv hk
      rcases p with _ | _ | p <;> simp [pair] at hf hv <;> subst hf <;> subst hv <;> simp [a, b] at hk <;> subst hk <;> simp [CardOk, valuesOf]
    · intro p f s v w hf hv hk hw
      rcases p with _ | _ | p <;> simp [pair] at hf hv <;> subst hf <;> subst hv <;> simp [a, b] at hk <;> subst hk <;> simp [valuesOf] at hw <;> subst hw <;> exact hbool _
    · intro p f e v hf hv hk
      rcases p with _ | _ | p <;> simp [pair] at hf <;> subst hf <;> simp [a, b] at hk
    · constructor
      · intro p q f g e e' hf hg hk
        rcases p with _ | _ | p <;> simp [pair] at hf <;> subst hf <;> simp [a, b] at hk
      · intro p f e j o w hf hv hk
        rcases p with _ | _ | p <;> simp [pair] at hf <;> subst hf <;> simp [a, b] at hk
  have hn : ElemNsOk (urls (declaredNs (pair [a, b]) (.strct 0))) ⟨"", "S"⟩ := .inr (.inr rfl)
  have hc : NoClash (pair [a, b]) ⟨"", "S"⟩ := .inl fun ty => by cases ty <;> rfl
  obtain ⟨s, h1, h2, h3⟩ := C94_written true true (fun _ _ => none) (fun _ _ => rfl) _ (pair [b, a]) (pair [a, b]) pair_declared (pair_ok b a (.inr ⟨rfl, rfl⟩))
    (pair_ok a b (.inl ⟨rfl, rfl⟩)) pair_reordered ⟨"", "S"⟩ (.strct 0) hn _ hv (noPlainWithin_of pair_declared (pair_ok a b (.inl ⟨rfl, rfl⟩)) hc hn hv) hf
  refine ⟨s, h1, h2, fun d hd => ?_⟩
  obtain ⟨v, h4, h5⟩ := h3 d hd
  have h6 : SameVal { field := fun _ p => 1 - p, variant := fun _ p => p } (pair [b, a]) (pair [a, b]) (.strct 0) (.strct [.opt (some (.text (.bool y))), .text (.bool x)])
      (.strct [.text (.bool x), .opt (some (.text (.bool y)))]) := by
    refine .strct rfl rfl ?_
    intro p f v v' hf hv hv'
    rcases p with _ | _ | p <;> simp [pair] at hf hv hv' <;> subst hf <;> subst hv <;> subst hv'
    · exact .element (.mk trivial trivial (.cons .text .nil))
    · exact .element (.mk ⟨_, rfl⟩ ⟨_, rfl⟩ (.cons .text .nil))
  rw [h4, (C94_one_to_one _ _ _ (pair_ok b a (.inr ⟨rfl, rfl⟩)) (pair_ok a b (.inl ⟨rfl, rfl⟩)) pair_reordered _ _ _ _ _ h5 h6).mpr rfl]

end ExD

example (dbg dbg' : Bool) (d : Doc) :
    (∃ v v', readTy dbg Ex.env (.strct 0) d.input = .ok (.ok v) ∧ readTy dbg' ExD.env (.strct 0) d.input = .ok (.ok v') ∧ SameVal ExD.places Ex.env ExD.env (.strct 0) v v') ∨
    (∃ E E', readTy dbg Ex.env (.strct 0) d.input = .ok (.error E) ∧ readTy dbg' ExD.env (.strct 0) d.input = .ok (.error E') ∧ SameError E E') :=
  C94_read dbg dbg' _ _ _ Ex.env_ok ExD.env_ok ExD.reordered _ d

end SX
