import Verif.Proof.LocalCopy
import Verif.Props.LocalRead
import Verif.Props.Reread

/-
C102: if a document is read and written again, a change in it changes what is written only where the change is.
-/
namespace SX
open Spec Spec.Open SX.Open LocalCopy

/-- **C102**. An element of a document, at any depth, and everything that can be there under the same name: either nothing in it matters, or it is read as a value of one type, at one
place of the value of the document (C101).  Any values at that place are written, by a program that writes the value of the document, as one element of that name, and all around it is
the same, to the event (C99). -/
theorem C102_place (dbg dbg' : Bool) (sink : Sink) (env : Env) (hok : EnvOk env) (ty : Ty) (d : Doc) (c : Elem → Forest) (hc : Around c) (n name : EName) :
    (∀ x y : Elem, x.name.expanded = n → y.name.expanded = n → ∀ v, readTy dbg env ty (d.with c x).input = .ok (.ok v) ↔ readTy dbg env ty (d.with c y).input = .ok (.ok v)) ∨
    ∃ ty' C, Place C ∧
      (∀ x : Elem, x.name.expanded = n → ∀ v, readTy dbg env ty (d.with c x).input = .ok (.ok v) ↔
        ∃ w, readTy dbg env ty' ({ d with root := x } : Doc).input = .ok (.ok w) ∧ v = C w) ∧
      ∀ w w' s, serializeVal dbg' sink env name ty (C w) = .ok (s, .ok ()) →
        ∃ m A B D, s.out = A ++ B ++ D ∧ A ≠ [] ∧ D ≠ [] ∧ Writes dbg' m (fieldOne (serOf env ty' w) n) B ∧
          ∀ out', (∃ sink' s', serializeVal dbg' sink' env name ty (C w') = .ok (s', .ok ()) ∧ s'.out = out') ↔
            ∃ B', Writes dbg' m (fieldOne (serOf env ty' w') n) B' ∧ out' = A ++ B' ++ D := by
  rcases around_copy env hok n hc d.root ty with ⟨r, h⟩ | ⟨ty', C, ⟨hP, hC⟩, h⟩
  · refine .inl fun x y hx hy v => ?_
    rw [C18_value dbg env hok, C18_value dbg env hok, show bodyValue env (Elem.body env (d.with c x).root) ty = r from h x hx,
      show bodyValue env (Elem.body env (d.with c y).root) ty = r from h y hy]
  · refine .inr ⟨ty', C, hP, fun x hx v => ?_, fun w w' s hs => ?_⟩
    · rw [C18_value dbg env hok, show bodyValue env (Elem.body env (d.with c x).root) ty = _ from h x hx]
      simp only [C18_value dbg env hok, map_place]
    · exact C99_document dbg' sink name _ _ _ _ (hC w w').1 (hC w w').2 s hs

/-- **C102**, for two documents that differ in one element only, which has the same name in both: both are read, and the values written.  What is written is the same, or differs in
one element only, which is what is read from the one that is different. -/
theorem C102_copies (dbg dbg' : Bool) (sink sink' : Sink) (env : Env) (hok : EnvOk env) (ty : Ty) (d : Doc) (c : Elem → Forest) (hc : Around c) (name : EName) (x y : Elem)
    (hn : x.name.expanded = y.name.expanded) (v v' : Val) (s s' : WState) (hx : readTy dbg env ty (d.with c x).input = .ok (.ok v))
    (hy : readTy dbg env ty (d.with c y).input = .ok (.ok v')) (hs : serializeVal dbg' sink env name ty v = .ok (s, .ok ()))
    (hs' : serializeVal dbg' sink' env name ty v' = .ok (s', .ok ())) :
    s.out = s'.out ∨
    ∃ ty' w w' m A q as ns f q' as' ns' f' D, readTy dbg env ty' ({ d with root := x } : Doc).input = .ok (.ok w) ∧ readTy dbg env ty' ({ d with root := y } : Doc).input = .ok (.ok w') ∧
      Writes dbg' m (fieldOne (serOf env ty' w) x.name.expanded) (documentEvents q as ns f) ∧ Writes dbg' m (fieldOne (serOf env ty' w') x.name.expanded) (documentEvents q' as' ns' f') ∧
      A ≠ [] ∧ D ≠ [] ∧ s.out = A ++ documentEvents q as ns f ++ D ∧ s'.out = A ++ documentEvents q' as' ns' f' ++ D := by
  rcases C102_place dbg dbg' sink env hok ty d c hc x.name.expanded name with h | ⟨ty', C, -, h1, h2⟩
  · left
    have := (h x y rfl hn.symm v).mp hx
    rw [hy] at this
    simp only [Except.ok.injEq] at this
    subst this
    obtain ⟨t, g1, g2⟩ := written_anywhere (v := serOf env ty v') (show serializeTo dbg' sink name (serOf env ty v').attrs (serOf env ty v').children = _ from hs)
    obtain ⟨t', g1', g2'⟩ := written_anywhere (v := serOf env ty v') (show serializeTo dbg' sink' name (serOf env ty v').attrs (serOf env ty v').children = _ from hs')
    rw [g1] at g1'
    simp only [Except.ok.injEq, Prod.mk.injEq, and_true] at g1'
    rw [← g2, ← g2', g1']
  · right
    obtain ⟨w, k1, rfl⟩ := (h1 x rfl v).mp hx
    obtain ⟨w', k2, rfl⟩ := (h1 y hn.symm v').mp hy
    obtain ⟨m, A, B, D, e1, e2, e3, e4, e5⟩ := h2 w w' s hs
    obtain ⟨B', e6, e7⟩ := (e5 s'.out).mp ⟨sink', s', hs', rfl⟩
    have one : ∀ u B, Writes dbg' m (fieldOne (serOf env ty' u) x.name.expanded) B → ∃ q as ns f, B = documentEvents q as ns f := by
      rintro u B ⟨t, l1, -, rfl⟩
      obtain ⟨-, m', q, as, f, -, -, -, -, -, -, -, -, l2⟩ := fieldOne_written (v := serOf env ty' u) (children_noForget env ty' u .ret fun _ => trivial) l1
      exact ⟨q, as, _, f, by simpa using l2⟩
    obtain ⟨q, as, ns, f, rfl⟩ := one w B e4
    obtain ⟨q', as', ns', f', rfl⟩ := one w' B' e6
    exact ⟨ty', w, w', m, A, q, as, ns, f, q', as', ns', f', D, k1, k2, e4, e6, e2, e3, e1, e7⟩

/-! ### An example: a book within a book -/

namespace ExCopy

def inD (loc : String) (children rest : Forest) : Forest := .elem ⟨loc, some "urn:d", none⟩ [] [("", "urn:d")] ⟨1, 1⟩ children ⟨1, 2⟩ rest

/-- `<Book xmlns="urn:d"><n>true</n><sub>…</sub></Book>`, open for the element in `sub`. -/
def around (x : Elem) : Forest := inD "n" (.chars "true" false ⟨1, 3⟩ .nil) (inD "sub" (.elem x.name x.attrs x.ns x.pos x.children x.endPos .nil) .nil)

theorem around_ok : Around around := .elem _ _ _ _ _ _ (.inside _ _ _ _ _ _ (.here _))

def book : Doc :=
  { startPos := ⟨0, 0⟩, prolog := [], epilog := [], eofPos := ⟨2, 0⟩, epilogOk := by simp
    root := { name := ⟨"Book", some "urn:d", none⟩, attrs := [], ns := [("", "urn:d")], pos := ⟨1, 0⟩, endPos := ⟨1, 9⟩, children := .nil } }

def flag (s : String) : Elem := { name := ⟨"n", some "urn:d", none⟩, attrs := [], ns := [("", "urn:d")], pos := ⟨1, 5⟩, children := .chars s false ⟨1, 6⟩ .nil, endPos := ⟨1, 7⟩ }

end ExCopy

section
attribute [local semireducible] writeChildren writeField writeVec writeElemFields writeFlattens

/-- The document with ` 1 ` and with `false` there is read and written again. -/
example : ∃ s s', serializeVal true accepting ExR.one ⟨"urn:d", "Book"⟩ (.strct 1) (ExS.book true [ExS.book true []]) = .ok (s, .ok ()) ∧
    serializeVal true accepting ExR.one ⟨"urn:d", "Book"⟩ (.strct 1) (ExS.book true [ExS.book false []]) = .ok (s', .ok ()) ∧
    readTy true ExR.one (.strct 1) (ExCopy.book.with ExCopy.around (ExCopy.flag " 1 ")).input = .ok (.ok (ExS.book true [ExS.book true []])) ∧
    readTy true ExR.one (.strct 1) (ExCopy.book.with ExCopy.around (ExCopy.flag "false")).input = .ok (.ok (ExS.book true [ExS.book false []])) ∧
    ∃ m A q as ns f q' as' ns' f' D, A ≠ [] ∧ D ≠ [] ∧ s.out = A ++ documentEvents q as ns f ++ D ∧ s'.out = A ++ documentEvents q' as' ns' f' ++ D ∧
      ∃ ty' w, Writes true m (fieldOne (serOf ExR.one ty' w) ⟨"urn:d", "n"⟩) (documentEvents q as ns f) := by
  obtain ⟨s, hs⟩ : ∃ s, serializeVal true accepting ExR.one ⟨"urn:d", "Book"⟩ (.strct 1) (ExS.book true [ExS.book true []]) = .ok (s, .ok ()) ∧
    s.out[6]? = some (.chars "true") := by refine ⟨_, rfl, ?_⟩; rfl
  obtain ⟨s', hs'⟩ : ∃ s, serializeVal true accepting ExR.one ⟨"urn:d", "Book"⟩ (.strct 1) (ExS.book true [ExS.book false []]) = .ok (s, .ok ()) ∧
    s.out[6]? = some (.chars "false") := by refine ⟨_, rfl, ?_⟩; rfl
  refine ⟨s, s', hs.1, hs'.1, rfl, rfl, ?_⟩
  rcases C102_copies true true accepting accepting ExR.one ExR.one_ok (.strct 1) ExCopy.book ExCopy.around ExCopy.around_ok ⟨"urn:d", "Book"⟩ (ExCopy.flag " 1 ") (ExCopy.flag "false") rfl
    _ _ s s' rfl rfl hs.1 hs'.1 with h | ⟨ty', w, w', m, A, q, as, ns, f, q', as', ns', f', D, -, -, k1, -, k2, k3, k4, k5⟩
  · have := hs'.2
    rw [← h, hs.2] at this
    simp at this
  · exact ⟨m, A, q, as, ns, f, q', as', ns', f', D, k2, k3, k4, k5, ty', w, k1⟩

end

end SX
