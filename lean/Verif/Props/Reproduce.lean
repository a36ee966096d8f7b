import Verif.Proof.Reproduce
import Verif.Props.WholeLocal

/-
C105: an error can be reproduced with the element it is about alone.
-/
namespace SX
open Spec Reproduce LocalErr

/-- **C105**. If a document cannot be read, there is an element in it, possibly the root, that cannot be read on its own as some type, for the same reason, which is about nothing below that
element; and the error of the document is that error, reported below the elements around. -/
theorem C105_reproduce (dbg : Bool) (env : Env) (hok : EnvOk env) (ty : Ty) (d : Doc) (E : Error) (h : readTy dbg env ty d.input = .ok (.error E)) :
    AboutRoot E ∨ ∃ path c x ty' E', Within path c ∧ d = d.with c x ∧ readTy dbg env ty' ({ d with root := x } : Doc).input = .ok (.error E') ∧ AboutRoot E' ∧
      E = Error.below (⟨d.root.name, d.root.pos⟩ :: path) E' := by
  obtain ⟨df, h1, rfl⟩ := (C44_first dbg env hok ty d E).mp h
  rcases body_near h1 with h2 | ⟨k, hk, ty1, df1, h2, h3, h4, h5⟩
  · exact .inl (near_about h2)
  · obtain ⟨path, c, x, ty', df', g1, g2, g3, g4, g5, g6⟩ := kid_near env d.root.children k hk ty1 df1 h2
    refine .inr ⟨path, c, x, ty', reported x df', g1, ?_, (C44_first dbg env hok ty' ({ d with root := x } : Doc) _).mpr ⟨df', g3, rfl⟩, near_about g4, ?_⟩
    · rw [Doc.with, g2]
    · rw [← below_reported d.root path ⟨x.name, x.pos⟩ x ⟨rfl, rfl⟩ df']
      obtain ⟨rel, kind, late⟩ := df
      simp only at h3 h4 h5
      subst h3 h4 h5
      rw [g5, g6]
      rfl

open Spec.Gen Gen SourceOk in
/-- **C105**, for the code that is emitted for a crate. -/
theorem C105_crate (c : Crate) (ho : InOrder c) (hap : Apart c) (code : Emitted) (types : Types) (ha : Accepted c code) (ht : c.Tied code types) (dbg : Bool) (ty : Ty) (d : Doc)
    (E : Error) (h : c.read code types dbg ty d.input = .ok (.error E)) :
    AboutRoot E ∨ ∃ path f x ty' E', Within path f ∧ d = d.with f x ∧ c.read code types dbg ty' ({ d with root := x } : Doc).input = .ok (.error E') ∧ AboutRoot E' ∧
      E = Error.below (⟨d.root.name, d.root.pos⟩ :: path) E' := by
  obtain ⟨env, hd⟩ := C65_env c code ha
  simp only [whole_read ha hap.noSkip hd ht] at h ⊢
  exact C105_reproduce dbg env ((C75_apart hd ho.variantIdents).mpr hap) ty d E h

/-! ### An example -/

namespace Ex

/-- `maybe` is not a `bool`: the element `n` alone is enough to see this. -/
example : ∃ path c x ty' E', Within path c ∧ openDoc.with around (flag "maybe") = (openDoc.with around (flag "maybe")).with c x ∧
    readTy true env ty' ({ openDoc with root := x } : Doc).input = .ok (.error E') ∧ AboutRoot E' ∧ path.length ≤ 1 ∧ E'.stack.length + path.length = 2 := by
  obtain ⟨e, h⟩ := maybe_error
  rcases C105_reproduce true env env_ok (.strct 0) (openDoc.with around (flag "maybe")) _ h with ⟨x, h | ⟨k, h, -⟩⟩ | ⟨path, c, x, ty', E', h1, h2, h3, h4, h5⟩
  · simp at h
  · simp at h
  · simp only [Error.below, Error.mk.injEq] at h5
    have hl := congrArg List.length h5.2.1
    simp at hl
    refine ⟨path, c, x, ty', E', h1, h2, h3, h4, ?_, by omega⟩
    obtain ⟨y, hy | ⟨k, hy, -⟩⟩ := h4 <;> have := congrArg List.length hy <;> simp at this <;> omega

end Ex

end SX
