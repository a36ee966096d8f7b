import Verif.Proof.LocalErr
import Verif.Props.DeriveFirst
import Verif.Props.LocalRead

/-
C103: an error in an element is reported as its own.
-/
namespace SX
open Spec LocalErr

theorem below_reported (root : Elem) (path : List StackElem) (nd : StackElem) (x : Elem) (hx : x.At nd) (df : Defect) :
    reported root (early (path ++ nd :: df.rel, df.kind)) = Error.below (⟨root.name, root.pos⟩ :: path) (reported x df) := by
  obtain ⟨h1, h2⟩ := hx
  have hnd : (⟨x.name, x.pos⟩ : StackElem) = nd := by rw [h1, h2]
  have hl : (path ++ nd :: df.rel).getLast? = (nd :: df.rel).getLast? := by
    rw [List.getLast?_append]
    cases h : (nd :: df.rel).getLast? with
    | none => simp at h
    | some l => rfl
  simp only [reported, early, Error.below, hnd, hl, List.cons_append]
  cases h : (nd :: df.rel).getLast? with
  | none => simp at h
  | some l => simp

/-- If the element comes first in what is wrong with the document, its error is the one reported. -/
theorem own_first (dbg : Bool) (env : Env) (hok : EnvOk env) (ty : Ty) (d : Doc) (path : List StackElem) (c : Elem → Forest) (nd : StackElem) (ty' : Ty) (r : Option Defect) (x : Elem)
    (hx : x.At nd) (h : bodyErr env ((d.with c x).root.body env) ty = ((ownAt env path nd x ty').map early).or r) (E : Error) :
    readTy dbg env ty (d.with c x).input = .ok (.error E) ↔
      (∃ E', readTy dbg env ty' ({ d with root := x } : Doc).input = .ok (.error E') ∧ E = Error.below (⟨d.root.name, d.root.pos⟩ :: path) E') ∨
      ((∃ w, readTy dbg env ty' ({ d with root := x } : Doc).input = .ok (.ok w)) ∧ r.map (reported d.root) = some E) := by
  have hr : ∀ df, reported (d.with c x).root df = reported d.root df := fun df => rfl
  simp only [C44_first dbg env hok, C18_value dbg env hok, hr]
  rw [show bodyErr env (Elem.body env (d.with c x).root) ty = _ from h]
  have hcomp := C44_complete env hok ty' ({ d with root := x } : Doc)
  simp only at hcomp
  simp only [ownAt]
  cases hb : bodyErr env (x.body env) ty' with
  | some df =>
    have hv : bodyValue env (x.body env) ty' = none := by
      cases hv : bodyValue env (x.body env) ty' with
      | none => rfl
      | some v => rw [hb, hv] at hcomp; simp at hcomp
    simp only [Option.map_some, Option.some_or, Option.some.injEq, hv]
    constructor
    · rintro ⟨_, rfl, rfl⟩
      exact .inl ⟨_, ⟨df, rfl, rfl⟩, below_reported d.root path nd x hx df⟩
    · rintro (⟨_, ⟨_, rfl, rfl⟩, rfl⟩ | ⟨⟨w, hw⟩, -⟩)
      · exact ⟨_, rfl, (below_reported d.root path nd x hx df).symm⟩
      · simp at hw
  | none =>
    have hv : ∃ w, bodyValue env (x.body env) ty' = some w := by
      cases hv : bodyValue env (x.body env) ty' with
      | none => rw [hb, hv] at hcomp; simp at hcomp
      | some v => exact ⟨v, rfl⟩
    simp only [Option.map_none, Option.none_or, hv, true_and, Option.map_eq_some_iff]
    constructor
    · rintro ⟨df, h1, rfl⟩
      exact .inr ⟨df, h1, rfl⟩
    · rintro (⟨_, ⟨_, h1, -⟩, -⟩ | ⟨df, h1, rfl⟩)
      · simp at h1
      · exact ⟨df, h1, rfl⟩

/-- **C103**. An element of a document, at any depth, and everything that can be there under the same name at the same position: either nothing in it matters for the error, or there is one
type such that, if the element on its own cannot be read as that type, the document cannot be read for the same reason, reported below the elements around; and if it can, the document
is read, or it fails with one and the same error whatever is in that element. -/
theorem C103_error (dbg : Bool) (env : Env) (hok : EnvOk env) (ty : Ty) (d : Doc) (path : List StackElem) (c : Elem → Forest) (hc : Within path c) (nd : StackElem) :
    (∀ x y : Elem, x.At nd → y.At nd → ∀ E, readTy dbg env ty (d.with c x).input = .ok (.error E) ↔ readTy dbg env ty (d.with c y).input = .ok (.error E)) ∨
    ∃ (ty' : Ty) (other : Option Error), ∀ x : Elem, x.At nd → ∀ E, readTy dbg env ty (d.with c x).input = .ok (.error E) ↔
      (∃ E', readTy dbg env ty' ({ d with root := x } : Doc).input = .ok (.error E') ∧ E = Error.below (⟨d.root.name, d.root.pos⟩ :: path) E') ∨
      ((∃ w, readTy dbg env ty' ({ d with root := x } : Doc).input = .ok (.ok w)) ∧ other = some E) := by
  rcases root_reports env nd hc d.root.attrs ty with ⟨r, h⟩ | ⟨ty', r, h⟩
  · refine .inl fun x y hx hy E => ?_
    rw [C44_first dbg env hok, C44_first dbg env hok, show bodyErr env (Elem.body env (d.with c x).root) ty = r from h x hx,
      show bodyErr env (Elem.body env (d.with c y).root) ty = r from h y hy]
    rfl
  · exact .inr ⟨ty', r.map (reported d.root), fun x hx E => own_first dbg env hok ty d path c nd ty' r x hx (h x hx) E⟩

/-- Every element of a document is inside others in this sense. -/
theorem around_within {c : Elem → Forest} (hc : Around c) : ∃ path, Within path c := by
  induction hc with
  | here rest => exact ⟨_, .here rest⟩
  | inside name attrs ns pos endPos rest _ ih => exact ⟨_, .inside name attrs ns pos endPos rest ih.choose_spec⟩
  | elem name attrs ns pos children endPos _ ih => exact ⟨_, .elem name attrs ns pos children endPos ih.choose_spec⟩
  | chars s cdata pos _ ih => exact ⟨_, .chars s cdata pos ih.choose_spec⟩
  | misc m pos _ ih => exact ⟨_, .misc m pos ih.choose_spec⟩

/-- **C103**. If a document can be read with one element at a place but not with another one of the same name and position, the other one cannot be read on its own as some type,
as which the first one can be read, and the error is that one, reported below the elements around. -/
theorem C103_blame (dbg : Bool) (env : Env) (hok : EnvOk env) (ty : Ty) (d : Doc) (path : List StackElem) (c : Elem → Forest) (hc : Within path c) (nd : StackElem) (x y : Elem)
    (hx : x.At nd) (hy : y.At nd) (v : Val) (h1 : readTy dbg env ty (d.with c x).input = .ok (.ok v)) (E : Error) (h2 : readTy dbg env ty (d.with c y).input = .ok (.error E)) :
    ∃ ty' w E', readTy dbg env ty' ({ d with root := x } : Doc).input = .ok (.ok w) ∧ readTy dbg env ty' ({ d with root := y } : Doc).input = .ok (.error E') ∧
      E = Error.below (⟨d.root.name, d.root.pos⟩ :: path) E' := by
  rcases C103_error dbg env hok ty d path c hc nd with h | ⟨ty', other, h⟩
  · have := h1.symm.trans ((h x y hx hy E).mpr h2)
    simp at this
  · have hx' := h x hx
    simp only [h1, Except.ok.injEq, reduceCtorEq, false_iff, not_or] at hx'
    have hw : ∃ w, readTy dbg env ty' ({ d with root := x } : Doc).input = .ok (.ok w) := by
      rcases C44_complete env hok ty' ({ d with root := x } : Doc) with hcm
      cases hb : bodyValue env (x.body env) ty' with
      | some w => exact ⟨w, (C18_value dbg env hok ty' _ w).mpr hb⟩
      | none =>
        simp only [hb, ne_eq, not_true_eq_false, iff_false] at hcm
        cases he : bodyErr env (x.body env) ty' with
        | none => exact absurd he hcm
        | some df => exact absurd ⟨_, (C44_first dbg env hok ty' ({ d with root := x } : Doc) _).mpr ⟨df, he, rfl⟩, rfl⟩ (hx' _).1
    rcases (h y hy E).mp h2 with ⟨E', h3, h4⟩ | ⟨-, h3⟩
    · obtain ⟨w, hw⟩ := hw
      exact ⟨ty', w, E', hw, h3, h4⟩
    · exact absurd ⟨hw, h3⟩ (hx' E).2

/-! ### An example -/

namespace Ex

theorem around_in : Within [⟨q "b", p 1⟩] around := .elem _ _ _ _ _ _ (.inside _ _ _ _ _ _ (.here _))

/-- `maybe` is not a `bool`: the error names `r`, `b` and `n`. -/
theorem maybe_error : ∃ e, readTy true env (.strct 0) (openDoc.with around (flag "maybe")).input =
    .ok (.error { kind := .deserializer (.text e), stack := [⟨q "r", openDoc.root.pos⟩, ⟨q "b", p 1⟩, ⟨q "n", p 5⟩], pos := p 5 }) := ⟨_, rfl⟩

example : ∃ ty' E', readTy true env ty' ({ openDoc with root := flag "maybe" } : Doc).input = .ok (.error E') ∧
    E'.stack = [⟨q "n", p 5⟩] ∧ ∃ e, E'.kind = .deserializer (.text e) := by
  obtain ⟨e, h2⟩ := maybe_error
  have h1 : readTy true env (.strct 0) (openDoc.with around (flag "true")).input =
    .ok (.ok (.strct [.text (.str "T"), .opt none, .vec [.text (.str "1")], .text (.str "7"), .enm 1 (some (.strct [.text (.bool true)]))])) := rfl
  obtain ⟨ty', w, E', -, h4, h5⟩ := C103_blame true env env_ok (.strct 0) openDoc _ around around_in ⟨q "n", p 5⟩ (flag "true") (flag "maybe") ⟨rfl, rfl⟩ ⟨rfl, rfl⟩ _ h1 _ h2
  simp only [Error.below, Error.mk.injEq] at h5
  refine ⟨ty', E', h4, ?_, e, h5.1.symm⟩
  have := h5.2.1
  simpa [openDoc, docOf] using this.symm

end Ex

end SX
