import Verif.Proof.TextVisitor
import Verif.Props.Derive

/-
C97: `read_string` can be had from `read_to`, as a comment in it says (`de/mod.rs:612-613`).
-/
namespace SX
open Spec.TextVisitor

/-- Replace every call of `read_string` in any program (any visitors, any implementation) by `read_to` with the visitor for text, its error put in the words of `read_string`: the
program does the same for every input, in debug and release builds: the same value, the same error with the same stack and position, or the same fault. -/
theorem C97_program {σ α : Type} (dbg : Bool) (V : Visitor σ) (D : Deser σ α) (i : Input) : read dbg (withText V) (deserWithText D) i = read dbg V D i :=
  TextVisitor.read_same dbg V D i

/-- The calls themselves, at an element: the same text and the same state of the reader after it; the same error, in the words of `read_string`. -/
theorem C97_call {σ : Type} (dbg : Bool) (V : Visitor σ) (fuel : Nat) (er : ElemReader) (s : RState) (hd : s.depth = er.stackPos + 1)
    (hl : s.stack.length = er.stackPos + 1) :
    (∀ f, readString dbg er fuel "" s = .error f ↔ readTo dbg (withText V) fuel er (.inr "") s = .error f) ∧
    ∀ x s', readString dbg er fuel "" s = .ok (x, s') ↔ ∃ w r, readTo dbg (withText V) fuel er (.inr "") s = .ok (w, r, s') ∧ asText w r = x := by
  have hi : ∃ x, s.stack[er.stackPos]? = some x := ⟨_, List.getElem?_eq_getElem (by omega)⟩
  obtain ⟨x, hi⟩ := hi
  obtain ⟨h1, h2⟩ := TextVisitor.text_same dbg V fuel er "" s ⟨hd, hl⟩
  simp only [readTo, hi, TextVisitor.visitAttrs_text]
  revert h1 h2
  cases readString dbg er fuel "" s with
  | error f =>
    intro h1 h2
    rw [h1 f rfl]
    exact ⟨fun f' => ⟨(fun h => by cases h; rfl), (fun h => by cases h; rfl)⟩, fun x s' => ⟨(fun h => by cases h), (fun ⟨_, _, h, _⟩ => by cases h)⟩⟩
  | ok y =>
    obtain ⟨y, s2⟩ := y
    intro h1 h2
    obtain ⟨-, w, r, e1, e2⟩ := h2 y s2 rfl
    rw [e1]
    refine ⟨fun f' => ⟨(fun h => by cases h), (fun h => by cases h)⟩, fun x s' => ⟨(fun h => by cases h; exact ⟨w, r, rfl, e2⟩), fun ⟨_, _, h, h'⟩ => ?_⟩⟩
    cases h
    rw [← h', e2]

/-- In `<r>`, before `a<![CDATA[b]]></r>`. -/
def Ex.inText : RState :=
  { inner := { pos := Ex.p 1, items := [(.characters "a", Ex.p 2), (.cdata "b", Ex.p 3), (.endElement (Ex.q "r"), Ex.p 4)], final := .eof, finalPos := Ex.p 5 }
    depth := 1, stack := [{ name := Ex.q "r", pos := Ex.p 1 }] }

example : ∃ s', readString true { ns := [], attrs := [⟨Ex.q "id", "7"⟩], stackPos := 0 } 4 "" Ex.inText = .ok (.ok "ab", s') ∧
    ∃ w r, readTo true (withText (derivedVisitor Ex.env)) 4 { ns := [], attrs := [⟨Ex.q "id", "7"⟩], stackPos := 0 } (.inr "") Ex.inText = .ok (w, r, s') ∧ asText w r = .ok "ab" :=
  ⟨_, rfl, ((C97_call true (derivedVisitor Ex.env) 4 { ns := [], attrs := [⟨Ex.q "id", "7"⟩], stackPos := 0 } Ex.inText rfl rfl).2 _ _).mp rfl⟩

/-- So for derived types. -/
theorem C97_derived (dbg : Bool) (env : Env) (ty : Ty) (i : Input) :
    read dbg (withText (derivedVisitor env)) (deserWithText fun _ => deserTy env ty) i = readTy dbg env ty i := C97_program dbg _ _ i

/-- The document of C18, without `read_string`. -/
example : read true (withText (derivedVisitor Ex.env)) (deserWithText fun _ => deserTy Ex.env (.strct 0)) Ex.recDoc.input = .ok (.ok Ex.recVal) :=
  (C97_derived true Ex.env (.strct 0) Ex.recDoc.input).trans Ex.recDoc_read

/-- `<r><t>a</t></r>` read as text, `<t>` being an element within it: in both the error is the one of `read_string`. -/
example : let d := Ex.docOf [] (Ex.leaf (Ex.q "t") "a" .nil)
    ∃ E, read true (withText (derivedVisitor Ex.env)) (deserWithText fun _ => deserTy Ex.env (.text .string)) d.input = .ok (.error E) ∧
      E.kind = .msg (.elementInString (Ex.q "t")) ∧ E.stack.length = 2 ∧ readTy true Ex.env (.text .string) d.input = .ok (.error E) := ⟨_, rfl, rfl, rfl, rfl⟩

end SX
