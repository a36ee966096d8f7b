import Verif.Proof.PromptKids
import Verif.Spec.Prompt
import Verif.Props.Onward

/-
C109: errors in documents are found at once.
-/
namespace SX
open Spec Reproduce LocalErr Repair Onward Prompt

/-- **C109**. Any visitor and implementation that pass on the errors they get: if a document cannot be read, then there is an event in it such that the elements in the error are those open
after that event (before it, if it is an end tag); and nothing after that event is looked at: whatever else follows, also an error of the parser or nothing at all, the error is the same. -/
theorem C109_prompt {σ α : Type} (dbg : Bool) (V : Visitor σ) (D : Deser σ α) (hV : Propagating V) (hD : DeserPropagating D) (d : Doc) (E : Error)
    (h : read dbg V D d.input = .ok (.error E)) :
    ∃ upto rest, d.input.items = upto ++ rest ∧ (E.stack = openedBy upto ∨ ∃ before n p, upto = before ++ [(.endElement n, p)] ∧ E.stack = openedBy before) ∧
      ∀ more final finalPos, read dbg V D { items := upto ++ more, final, finalPos } = .ok (.error E) := by
  obtain ⟨cc, hf, hr⟩ := doc_prompt dbg hV hD d E h
  obtain ⟨rest, hi⟩ := hf.items
  exact ⟨cc, rest, hi, hf.stack, fun more final finalPos => hr _ ⟨more, rfl⟩⟩

/-- C109 for derived types: what is wrong with the root alone is found by the end of the root; what is wrong with an element (that is reported with it alone as well, as in C105), by the end
tag of that element, whatever follows. -/
theorem C109_element (dbg : Bool) (env : Env) (hok : EnvOk env) (ty : Ty) (d : Doc) (E : Error) (h : readTy dbg env ty d.input = .ok (.error E)) :
    (AboutRoot E ∧ ∀ more final finalPos, readTy dbg env ty { items := upToRoot d ++ elemEvents d.root ++ more, final, finalPos } = .ok (.error E)) ∨
    ∃ path c x ty' E' pre post, Within path c ∧ d = d.with c x ∧ readTy dbg env ty' ({ d with root := x } : Doc).input = .ok (.error E') ∧ AboutRoot E' ∧
      E = Error.below (⟨d.root.name, d.root.pos⟩ :: path) E' ∧ (∀ y, (d.with c y).input.items = pre ++ elemEvents y ++ post) ∧
      ∀ more final finalPos, readTy dbg env ty { items := pre ++ elemEvents x ++ more, final, finalPos } = .ok (.error E) := by
  have settle : ∀ (d2 : Doc) (P ends : List (XEvent × Pos)), readTy dbg env ty d2.input = .ok (.error E) → d2.input.items = P ++ ends →
      (∀ e ∈ ends, ∃ n p, e = (.endElement n, p)) → (openedBy P).length < E.stack.length →
      ∀ more final finalPos, readTy dbg env ty { items := P ++ more, final, finalPos } = .ok (.error E) := by
    intro d2 P ends h2 hi he hl more final finalPos
    obtain ⟨cc, hf, hr⟩ := doc_prompt dbg (Context.derived_propagating env) (fun _ => Context.deserTy_propagating env ty) d2 E h2
    obtain ⟨q, hq⟩ := found_within hf hi he hl
    exact hr _ ⟨q ++ more, by rw [hq, List.append_assoc]⟩
  obtain ⟨df, h1, rfl⟩ := (C44_first dbg env hok ty d E).mp h
  rcases body_goes (show bodyErr env ⟨d.root.attrs, kids env d.root.children, d.root.children.text⟩ ty = some df from h1) with h2 | ⟨a, k, b, ty1, df1, h2, h3, h4, h5⟩
  · refine .inl ⟨near_about h2, ?_⟩
    refine settle { d with epilog := [], epilogOk := by simp } _ [] ((C44_first dbg env hok ty _ _).mpr ⟨df, h1, rfl⟩) ?_ (by simp) ?_
    · simp [Doc.input, upToRoot, elemEvents, miscEvents]
    · rw [show openedBy (upToRoot d ++ elemEvents d.root) = (elemEvents d.root).foldl opened (openedBy (upToRoot d)) from List.foldl_append, opened_elem, upToRoot, openedBy_miscs]
      simp [reported]
  · obtain ⟨path, c, x, ty', df', pre, post, ends, f2, k2, g1, g2, g3, g4, g5, g6, g7, g8, g9, g10, g11, g12, g13⟩ := kid_upto env d.root.children a k b h2 ty1 df1 h3
    have hE : reported d.root df = Error.below (⟨d.root.name, d.root.pos⟩ :: path) (reported x df') := by
      rw [← below_reported d.root path ⟨x.name, x.pos⟩ x ⟨rfl, rfl⟩ df', h4, g5, g6]
    refine .inr ⟨path, c, x, ty', reported x df', upToRoot d ++ (.startElement d.root.name d.root.attrs d.root.ns, d.root.pos) :: pre,
      post ++ (.endElement d.root.name, d.root.endPos) :: miscEvents d.epilog, g1, ?_, (C44_first dbg env hok ty' ({ d with root := x } : Doc) _).mpr ⟨df', g3, rfl⟩, near_about g4, hE, ?_, ?_⟩
    · rw [Doc.with, g2]
    · intro y
      rw [with_items, g7]
      simp [upToRoot]
    · refine settle { d with root := { d.root with children := f2 }, epilog := [], epilogOk := by simp } _ (ends ++ [(.endElement d.root.name, d.root.endPos)])
        ((C44_first dbg env hok ty _ _).mpr ⟨df, ?_, rfl⟩) ?_ ?_ ?_
      · show bodyErr env ⟨d.root.attrs, kids env f2, f2.text⟩ ty = some df
        rw [g11, h4]
        exact h5.wrong k2 [] _ _ g12 (by rw [own, g13, ← g12]; rfl)
      · simp [Doc.input, upToRoot, g9, miscEvents]
      · intro e he
        rcases List.mem_append.mp he with he | he
        · exact g10 e he
        · exact ⟨_, _, List.mem_singleton.mp he⟩
      · have : openedBy (upToRoot d ++ (.startElement d.root.name d.root.attrs d.root.ns, d.root.pos) :: pre ++ elemEvents x) = ⟨d.root.name, d.root.pos⟩ :: path := by
          rw [openedBy, List.foldl_append, List.foldl_append, opened_elem, List.foldl_cons, g8]
          rw [show List.foldl opened [] (upToRoot d) = [] from openedBy_miscs _ _]
          rfl
        rw [this, hE]
        simp [Error.below, reported]

open Spec.Gen Gen SourceOk in
/-- C109 for the code emitted for a program. -/
theorem C109_crate (c : Crate) (ho : InOrder c) (hap : Apart c) (code : Emitted) (types : Types) (ha : Accepted c code) (ht : c.Tied code types) (dbg : Bool) (ty : Ty) (d : Doc)
    (E : Error) (h : c.read code types dbg ty d.input = .ok (.error E)) :
    (AboutRoot E ∧ ∀ more final finalPos, c.read code types dbg ty { items := upToRoot d ++ elemEvents d.root ++ more, final, finalPos } = .ok (.error E)) ∨
    ∃ path f x ty' E' pre post, Within path f ∧ d = d.with f x ∧ c.read code types dbg ty' ({ d with root := x } : Doc).input = .ok (.error E') ∧ AboutRoot E' ∧
      E = Error.below (⟨d.root.name, d.root.pos⟩ :: path) E' ∧ (∀ y, (d.with f y).input.items = pre ++ elemEvents y ++ post) ∧
      ∀ more final finalPos, c.read code types dbg ty { items := pre ++ elemEvents x ++ more, final, finalPos } = .ok (.error E) := by
  obtain ⟨env, hd⟩ := C65_env c code ha
  simp only [whole_read ha hap.noSkip hd ht] at h ⊢
  exact C109_element dbg env ((C75_apart hd ho.variantIdents).mpr hap) ty d E h

/-! ### Examples -/

namespace Ex

/-- `maybe` is not a `bool`, and nobody looks at what follows. -/
example : ∃ c x pre post, openDoc.with around (flag "maybe") = (openDoc.with around (flag "maybe")).with c x ∧
    (∀ y, ((openDoc.with around (flag "maybe")).with c y).input.items = pre ++ elemEvents y ++ post) ∧
    ∃ E, readTy true env (.strct 0) (openDoc.with around (flag "maybe")).input = .ok (.error E) ∧
      ∀ more final finalPos, readTy true env (.strct 0) { items := pre ++ elemEvents x ++ more, final, finalPos } = .ok (.error E) := by
  obtain ⟨e, h⟩ := maybe_error
  rcases C109_element true env env_ok (.strct 0) (openDoc.with around (flag "maybe")) _ h with ⟨⟨x, h | ⟨k, h, -⟩⟩, -⟩ | ⟨path, c, x, ty', E', pre, post, h1, h2, h3, h4, h5, h6, h7⟩
  · simp at h
  · simp at h
  · exact ⟨c, x, pre, post, h2, h6, _, h, h7⟩

end Ex

end SX
