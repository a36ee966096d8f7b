import Verif.Proof.Onward
import Verif.Props.Repair
import Verif.Props.Prefix

/-
C108: once the element that an error was about has been replaced by one that can be read, everything up to its end is accepted.
-/
namespace SX
open Spec Reproduce LocalErr Repair Onward

/-- The events of a document whose root has other content. -/
theorem with_items (d : Doc) (c : Elem → Forest) (y : Elem) : (d.with c y).input.items =
    ((.startDocument, d.startPos) :: (miscEvents d.prolog ++ [(.startElement d.root.name d.root.attrs d.root.ns, d.root.pos)])) ++ (c y).events ++
      (.endElement d.root.name, d.root.endPos) :: miscEvents d.epilog := by
  simp [Doc.input, Doc.with]

theorem fresh_pos (l : List StackElem) (n : QName) : ∃ q : Pos, (⟨n, q⟩ : StackElem) ∉ l := by
  have key : ∃ m : Nat, ∀ e ∈ l, e.pos.row < m := by
    induction l with
    | nil => exact ⟨0, by simp⟩
    | cons a l ih =>
      obtain ⟨m, hm⟩ := ih
      refine ⟨a.pos.row + 1 + m, fun e he => ?_⟩
      rcases List.mem_cons.mp he with rfl | he
      · omega
      · have := hm e he
        omega
  obtain ⟨m, hm⟩ := key
  exact ⟨⟨m, 0⟩, fun h => Nat.lt_irrefl _ (hm _ h)⟩

/-- **C108**. If a document cannot be read, the error is about the root alone; or it is that of an element in the document on its own, as some type, and about nothing below that element (as
in C105, C106); and with any element in the place of that one, under the same name at the same position, that can be read as that type, the document is accepted at least up to the end
tag of that element: an input that breaks off there gives the error of the parser.  So no error of the repaired document is found before the end of that element. -/
theorem C108_onward (dbg : Bool) (env : Env) (hok : EnvOk env) (ty : Ty) (d : Doc) (E : Error) (h : readTy dbg env ty d.input = .ok (.error E)) :
    AboutRoot E ∨ ∃ path c x ty' E' pre post, Within path c ∧ d = d.with c x ∧ readTy dbg env ty' ({ d with root := x } : Doc).input = .ok (.error E') ∧ AboutRoot E' ∧
      E = Error.below (⟨d.root.name, d.root.pos⟩ :: path) E' ∧ (∀ y, (d.with c y).input.items = pre ++ elemEvents y ++ post) ∧
      ∀ y : Elem, y.At ⟨x.name, x.pos⟩ → (∃ w, readTy dbg env ty' ({ d with root := y } : Doc).input = .ok (.ok w)) → ∀ m p fp,
        readTy dbg env ty (cutAt (pre ++ elemEvents y) m p fp) = .ok (.error (tooEarly (pre ++ elemEvents y) m p)) := by
  obtain ⟨df, h1, rfl⟩ := (C44_first dbg env hok ty d E).mp h
  rcases body_goes (show bodyErr env ⟨d.root.attrs, kids env d.root.children, d.root.children.text⟩ ty = some df from h1) with h2 | ⟨a, k, b, ty1, df1, h2, h3, h4, h5⟩
  · exact .inl (near_about h2)
  · obtain ⟨path, c, x, ty', df', c2, pre, post, g1, g2, g3, g4, g5, g6, g7, g8, g9⟩ := kid_onward env d.root.children a k b h2 ty1 df1 h3
    refine .inr ⟨path, c, x, ty', reported x df', (.startDocument, d.startPos) :: (miscEvents d.prolog ++ [(.startElement d.root.name d.root.attrs d.root.ns, d.root.pos)]) ++ pre,
      post ++ (.endElement d.root.name, d.root.endPos) :: miscEvents d.epilog, g1, ?_, (C44_first dbg env hok ty' ({ d with root := x } : Doc) _).mpr ⟨df', g3, rfl⟩, near_about g4, ?_, ?_, ?_⟩
    · rw [Doc.with, g2]
    · rw [← below_reported d.root path ⟨x.name, x.pos⟩ x ⟨rfl, rfl⟩ df', h4, g5, g6]
    · intro y
      rw [with_items, g7]
      simp
    · rintro y hy ⟨w, hw⟩ m p fp
      have hy' : bodyErr env (y.body env) ty' = none := (C44_complete env hok ty' ({ d with root := y } : Doc)).mpr fun hn => by
        rw [C18_value dbg env hok] at hw
        rw [show bodyValue env (y.body env) ty' = some w from hw] at hn
        cases hn
      rcases C68_prefix dbg _ _ (Prefix.derived_passes env) (fun _ => Prefix.deserTy_passes env ty)
        ((.startDocument, d.startPos) :: (miscEvents d.prolog ++ [(.startElement d.root.name d.root.attrs d.root.ns, d.root.pos)]) ++ pre ++ elemEvents y) with h6 | ⟨r, -, h6⟩
      · exact h6 m p fp
      · exfalso
        have hr : ∀ q : Pos, ∃ df2, r = .ok (.error (reported d.root df2)) ∧ (⟨x.name, q⟩ : StackElem) ∈ df2.rel := by
          intro q
          obtain ⟨df2, e1, e2⟩ := (g9 y { x with pos := q } hy rfl hy' (by
            show bodyErr env (x.body env) ty' ≠ none
            rw [g3]; simp)).body h5 (c2 y { x with pos := q }).text
          refine ⟨df2, ?_, e2⟩
          have h7 := (C44_first dbg env hok ty (d.with (fun z => c2 y z) { x with pos := q }) (reported d.root df2)).mpr ⟨df2, e1, rfl⟩
          have h8 := h6 (elemEvents { x with pos := q } ++ post ++ (.endElement d.root.name, d.root.endPos) :: miscEvents d.epilog) .eof d.eofPos
          rw [← h8]
          refine Eq.trans ?_ h7
          show readTy dbg env ty _ = readTy dbg env ty _
          congr 1
          have h9 := with_items d (fun z => c2 y z) { x with pos := q }
          rw [g8] at h9
          have h10 : (d.with (fun z => c2 y z) { x with pos := q }).input = { items := (d.with (fun z => c2 y z) { x with pos := q }).input.items, final := .eof, finalPos := d.eofPos } := rfl
          rw [h10, h9]
          simp
        obtain ⟨df2, e1, -⟩ := hr ⟨0, 0⟩
        obtain ⟨q, hq⟩ := fresh_pos (reported d.root df2).stack x.name
        obtain ⟨df3, e3, e4⟩ := hr q
        rw [e1] at e3
        simp only [Except.ok.injEq, Except.error.injEq] at e3
        rw [e3] at hq
        exact hq (by simp [reported, e4])

open Spec.Gen Gen SourceOk in
/-- **C108**, for the code that is emitted for a crate. -/
theorem C108_crate (c : Crate) (ho : InOrder c) (hap : Apart c) (code : Emitted) (types : Types) (ha : Accepted c code) (ht : c.Tied code types) (dbg : Bool) (ty : Ty) (d : Doc)
    (E : Error) (h : c.read code types dbg ty d.input = .ok (.error E)) :
    AboutRoot E ∨ ∃ path f x ty' E' pre post, Within path f ∧ d = d.with f x ∧ c.read code types dbg ty' ({ d with root := x } : Doc).input = .ok (.error E') ∧ AboutRoot E' ∧
      E = Error.below (⟨d.root.name, d.root.pos⟩ :: path) E' ∧ (∀ y, (d.with f y).input.items = pre ++ elemEvents y ++ post) ∧
      ∀ y : Elem, y.At ⟨x.name, x.pos⟩ → (∃ w, c.read code types dbg ty' ({ d with root := y } : Doc).input = .ok (.ok w)) → ∀ m p fp,
        c.read code types dbg ty (cutAt (pre ++ elemEvents y) m p fp) = .ok (.error (tooEarly (pre ++ elemEvents y) m p)) := by
  obtain ⟨env, hd⟩ := C65_env c code ha
  simp only [whole_read ha hap.noSkip hd ht] at h ⊢
  exact C108_onward dbg env ((C75_apart hd ho.variantIdents).mpr hap) ty d E h

/-! ### An example -/

namespace Ex

/-- `maybe` is not a `bool`: with something else in its place, the document is accepted up to there. -/
example : ∃ c x ty' pre post, openDoc.with around (flag "maybe") = (openDoc.with around (flag "maybe")).with c x ∧
    (∀ y, ((openDoc.with around (flag "maybe")).with c y).input.items = pre ++ elemEvents y ++ post) ∧
    ∀ y : Elem, y.At ⟨x.name, x.pos⟩ → (∃ w, readTy true env ty' ({ openDoc with root := y } : Doc).input = .ok (.ok w)) → ∀ m p fp,
      readTy true env (.strct 0) (cutAt (pre ++ elemEvents y) m p fp) = .ok (.error (tooEarly (pre ++ elemEvents y) m p)) := by
  obtain ⟨e, h⟩ := maybe_error
  rcases C108_onward true env env_ok (.strct 0) (openDoc.with around (flag "maybe")) _ h with ⟨x, h | ⟨k, h, -⟩⟩ | ⟨path, c, x, ty', E', pre, post, h1, h2, h3, h4, h5, h6, h7⟩
  · simp at h
  · simp at h
  · exact ⟨c, x, ty', pre, post, h2, h6, fun y hy hw => h7 y hy hw⟩

end Ex

end SX
