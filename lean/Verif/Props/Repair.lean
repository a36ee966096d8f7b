import Verif.Proof.Repair
import Verif.Props.Reproduce

/-
C106: replacing the element that an error is about decides whether the document fails there.
-/
namespace SX
open Spec Reproduce LocalErr Repair

/-- **C106**. If a document cannot be read, the error is about the root alone; or there is an element in the document, and a type, such that the error is that of reading the element on its own
as that type and about nothing below that element (as in C105), and whatever is put in the place of the element, under the same name and at the same position: if that cannot be read on
its own as that type, the document fails for that reason; if it can, what remains, no error or another one, is the same whatever was put there. -/
theorem C106_repair (dbg : Bool) (env : Env) (hok : EnvOk env) (ty : Ty) (d : Doc) (E : Error) (h : readTy dbg env ty d.input = .ok (.error E)) :
    AboutRoot E ∨ ∃ path c x ty' E' other, Within path c ∧ d = d.with c x ∧ readTy dbg env ty' ({ d with root := x } : Doc).input = .ok (.error E') ∧ AboutRoot E' ∧
      E = Error.below (⟨d.root.name, d.root.pos⟩ :: path) E' ∧
      ∀ y : Elem, y.At ⟨x.name, x.pos⟩ → ∀ F, readTy dbg env ty (d.with c y).input = .ok (.error F) ↔
        (∃ F', readTy dbg env ty' ({ d with root := y } : Doc).input = .ok (.error F') ∧ F = Error.below (⟨d.root.name, d.root.pos⟩ :: path) F') ∨
        ((∃ w, readTy dbg env ty' ({ d with root := y } : Doc).input = .ok (.ok w)) ∧ other = some F) := by
  obtain ⟨df, h1, rfl⟩ := (C44_first dbg env hok ty d E).mp h
  rcases body_repair (show bodyErr env ⟨d.root.attrs, kids env d.root.children, d.root.children.text⟩ ty = some df from h1) with h2 | ⟨a, k, b, ty1, df1, r1, h2, h3, h4, h5⟩
  · exact .inl (near_about h2)
  · obtain ⟨path, c, x, ty', df', K, r, g1, g2, g3, g4, g5, g6, g7⟩ := kid_repair env d.root.children a k b h2 ty1 df1 h3
    refine .inr ⟨path, c, x, ty', reported x df', ((r.map early).or r1).map (reported d.root), g1, ?_, (C44_first dbg env hok ty' ({ d with root := x } : Doc) _).mpr ⟨df', g3, rfl⟩, near_about g4,
      ?_, fun y hy F => own_first dbg env hok ty d path c ⟨x.name, x.pos⟩ ty' _ y hy ?_ F⟩
    · rw [Doc.with, g2]
    · rw [← below_reported d.root path ⟨x.name, x.pos⟩ x ⟨rfl, rfl⟩ df', h4, g5, g6]
    · obtain ⟨e1, e2, e3⟩ := g7 y hy
      have ht : (c y).text = d.root.children.text := by rw [← g2, text_within g1 y x]
      show bodyErr env ⟨d.root.attrs, kids env (c y), (c y).text⟩ ty = _
      rw [e1, ht, h5 (K y) e2, e3]
      cases ownAt env path ⟨x.name, x.pos⟩ y ty' <;> simp

/-- In particular, the document fails in the same way, if at all, for all that can be put in the place of the element and can be read. -/
theorem C106_alike (dbg : Bool) (env : Env) (hok : EnvOk env) (ty : Ty) (d : Doc) (E : Error) (h : readTy dbg env ty d.input = .ok (.error E)) (hr : ¬ AboutRoot E) :
    ∃ path c x ty', Within path c ∧ d = d.with c x ∧ (¬ ∃ w, readTy dbg env ty' ({ d with root := x } : Doc).input = .ok (.ok w)) ∧
      ∀ y z : Elem, y.At ⟨x.name, x.pos⟩ → z.At ⟨x.name, x.pos⟩ → (∃ w, readTy dbg env ty' ({ d with root := y } : Doc).input = .ok (.ok w)) →
        (∃ w, readTy dbg env ty' ({ d with root := z } : Doc).input = .ok (.ok w)) →
        ∀ F, readTy dbg env ty (d.with c y).input = .ok (.error F) ↔ readTy dbg env ty (d.with c z).input = .ok (.error F) := by
  rcases C106_repair dbg env hok ty d E h with h | ⟨path, c, x, ty', E', other, h1, h2, h3, -, -, h4⟩
  · exact absurd h hr
  · refine ⟨path, c, x, ty', h1, h2, (by rintro ⟨w, hw⟩; rw [h3] at hw; cases hw), fun y z hy hz ⟨w, hw⟩ ⟨v, hv⟩ F => ?_⟩
    rw [h4 y hy F, h4 z hz F, hw, hv]
    simp

open Spec.Gen Gen SourceOk in
/-- **C106**, for the code that is emitted for a crate. -/
theorem C106_crate (c : Crate) (ho : InOrder c) (hap : Apart c) (code : Emitted) (types : Types) (ha : Accepted c code) (ht : c.Tied code types) (dbg : Bool) (ty : Ty) (d : Doc)
    (E : Error) (h : c.read code types dbg ty d.input = .ok (.error E)) :
    AboutRoot E ∨ ∃ path f x ty' E' other, Within path f ∧ d = d.with f x ∧ c.read code types dbg ty' ({ d with root := x } : Doc).input = .ok (.error E') ∧ AboutRoot E' ∧
      E = Error.below (⟨d.root.name, d.root.pos⟩ :: path) E' ∧
      ∀ y : Elem, y.At ⟨x.name, x.pos⟩ → ∀ F, c.read code types dbg ty (d.with f y).input = .ok (.error F) ↔
        (∃ F', c.read code types dbg ty' ({ d with root := y } : Doc).input = .ok (.error F') ∧ F = Error.below (⟨d.root.name, d.root.pos⟩ :: path) F') ∨
        ((∃ w, c.read code types dbg ty' ({ d with root := y } : Doc).input = .ok (.ok w)) ∧ other = some F) := by
  obtain ⟨env, hd⟩ := C65_env c code ha
  simp only [whole_read ha hap.noSkip hd ht] at h ⊢
  exact C106_repair dbg env ((C75_apart hd ho.variantIdents).mpr hap) ty d E h

/-! ### An example -/

namespace Ex

/-- `maybe` is not a `bool`: there is an element whose replacements decide. -/
example : ∃ path c x ty' other, Within path c ∧ openDoc.with around (flag "maybe") = (openDoc.with around (flag "maybe")).with c x ∧
    ∀ y : Elem, y.At ⟨x.name, x.pos⟩ → (∃ w, readTy true env ty' ({ openDoc with root := y } : Doc).input = .ok (.ok w)) →
      ∀ F, readTy true env (.strct 0) ((openDoc.with around (flag "maybe")).with c y).input = .ok (.error F) ↔ other = some F := by
  obtain ⟨e, h⟩ := maybe_error
  rcases C106_repair true env env_ok (.strct 0) (openDoc.with around (flag "maybe")) _ h with ⟨x, h | ⟨k, h, -⟩⟩ | ⟨path, c, x, ty', E', other, h1, h2, h3, h4, h5, h6⟩
  · simp at h
  · simp at h
  · refine ⟨path, c, x, ty', other, h1, h2, fun y hy ⟨w, hw⟩ F => ?_⟩
    rw [h6 y hy F]
    have hw' : readTy true env ty' ({ openDoc.with around (flag "maybe") with root := y } : Doc).input = .ok (.ok w) := hw
    simp [hw']

end Ex

end SX
