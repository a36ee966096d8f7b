import Verif.Proof.LocalRead
import Verif.Props.Derive

/-
C101: a change in a document changes what is read only where the change is.
-/
namespace SX
open Spec LocalRead

theorem map_place {α β : Type} {o : Option α} {C : α → β} {v : β} : o.map C = some v ↔ ∃ w, o = some w ∧ v = C w := by
  simp only [Option.map_eq_some_iff, eq_comm (a := v)]

/-- **C101**. An element of a document, at any depth, and everything that can be there under the same name: either nothing in it matters, or it is read as on its own, as a value of one
type, which then is at one place of the value of the document.  All else is the same, and whether the document can be read depends on that element only. -/
theorem C101_place (dbg : Bool) (env : Env) (hok : EnvOk env) (ty : Ty) (d : Doc) (c : Elem → Forest) (hc : Around c) (n : EName) :
    (∀ x y : Elem, x.name.expanded = n → y.name.expanded = n → ∀ v, readTy dbg env ty (d.with c x).input = .ok (.ok v) ↔ readTy dbg env ty (d.with c y).input = .ok (.ok v)) ∨
    ∃ ty' C, Place C ∧ ∀ x : Elem, x.name.expanded = n → ∀ v, readTy dbg env ty (d.with c x).input = .ok (.ok v) ↔
      ∃ w, readTy dbg env ty' ({ d with root := x } : Doc).input = .ok (.ok w) ∧ v = C w := by
  cases around_local env hok n hc d.root ty with
  | same r h =>
    refine .inl fun x y hx hy v => ?_
    rw [C18_value dbg env hok, C18_value dbg env hok, show bodyValue env (Elem.body env (d.with c x).root) ty = r from h x hx,
      show bodyValue env (Elem.body env (d.with c y).root) ty = r from h y hy]
  | place ty' C hC h =>
    refine .inr ⟨ty', C, hC, fun x hx v => ?_⟩
    rw [C18_value dbg env hok, show bodyValue env (Elem.body env (d.with c x).root) ty = _ from h x hx]
    simp only [C18_value dbg env hok, map_place]

theorem attr_place {dbg : Bool} {env : Env} (hok : EnvOk env) (ty : Ty) (d : Doc) (q : QName) (a b : List XAttr) (x : Elem) :
    (∀ s s' v, readTy dbg env ty ({ d with root := { x with attrs := a ++ ⟨q, s⟩ :: b } } : Doc).input = .ok (.ok v) ↔
      readTy dbg env ty ({ d with root := { x with attrs := a ++ ⟨q, s'⟩ :: b } } : Doc).input = .ok (.ok v)) ∨
    ∃ t C, Place C ∧ ∀ s v, readTy dbg env ty ({ d with root := { x with attrs := a ++ ⟨q, s⟩ :: b } } : Doc).input = .ok (.ok v) ↔ ∃ w, parsed t s = some w ∧ v = C w := by
  rcases bodyAttr_local env hok q a b (kids env x.children) x.children.text ty with ⟨r, h⟩ | ⟨t, C, hC, h⟩
  · refine .inl fun s s' v => ?_
    rw [C18_value dbg env hok, C18_value dbg env hok]
    have h1 := h s
    have h2 := h s'
    simp only at h1 h2
    simp only [Elem.body, h1, h2]
  · refine .inr ⟨t, C, hC, fun s v => ?_⟩
    rw [C18_value dbg env hok]
    have h1 := h s
    simp only at h1
    simp only [Elem.body, h1]
    exact map_place

theorem text_place {dbg : Bool} {env : Env} (hok : EnvOk env) (ty : Ty) (d : Doc) (cdata : Bool) (pos : Pos) (x : Elem) :
    (∀ s s' v, readTy dbg env ty ({ d with root := { x with children := .chars s cdata pos .nil } } : Doc).input = .ok (.ok v) ↔
      readTy dbg env ty ({ d with root := { x with children := .chars s' cdata pos .nil } } : Doc).input = .ok (.ok v)) ∨
    ∃ t C, Place C ∧ ∀ s v, readTy dbg env ty ({ d with root := { x with children := .chars s cdata pos .nil } } : Doc).input = .ok (.ok v) ↔ ∃ w, parsed t s = some w ∧ v = C w := by
  simp only [C18_value dbg env hok, Elem.body, kids, Forest.text, String.append_empty]
  cases ty with
  | text t =>
    refine .inr ⟨t, id, .here, fun s v => ?_⟩
    simp only [bodyValue, parsed, id]
    cases t.parse s <;> simp [eq_comm]
  | strct i =>
    exact .inl fun s s' v => by
      simp only [bodyValue, structValue]
      rw [fieldsValue_text (t := s) (t' := s')]
  | enm i => exact .inl fun s s' v => Iff.rfl

theorem place_within {dbg : Bool} {env : Env} (hok : EnvOk env) (ty : Ty) (d : Doc) (c : Elem → Forest) (hc : Around c) (x : String → Elem) (q : QName) (hx : ∀ s, (x s).name = q)
    (h : ∀ ty, (∀ s s' v, readTy dbg env ty ({ d with root := x s } : Doc).input = .ok (.ok v) ↔ readTy dbg env ty ({ d with root := x s' } : Doc).input = .ok (.ok v)) ∨
      ∃ t C, Place C ∧ ∀ s v, readTy dbg env ty ({ d with root := x s } : Doc).input = .ok (.ok v) ↔ ∃ w, parsed t s = some w ∧ v = C w) :
    (∀ s s' v, readTy dbg env ty (d.with c (x s)).input = .ok (.ok v) ↔ readTy dbg env ty (d.with c (x s')).input = .ok (.ok v)) ∨
    ∃ t C, Place C ∧ ∀ s v, readTy dbg env ty (d.with c (x s)).input = .ok (.ok v) ↔ ∃ w, parsed t s = some w ∧ v = C w := by
  have hn : ∀ s, (x s).name.expanded = q.expanded := fun s => by rw [hx]
  rcases C101_place dbg env hok ty d c hc q.expanded with h1 | ⟨ty', C, hC, h1⟩
  · exact .inl fun s s' v => h1 _ _ (hn s) (hn s') v
  · rcases h ty' with h2 | ⟨t, D, hD, h2⟩
    · exact .inl fun s s' v => by simp only [h1 _ (hn s), h1 _ (hn s'), h2 s s']
    · refine .inr ⟨t, _, place_comp hC hD, fun s v => ?_⟩
      simp only [h1 _ (hn s), h2]
      constructor
      · rintro ⟨w, ⟨u, hu, rfl⟩, rfl⟩
        exact ⟨u, hu, rfl⟩
      · rintro ⟨u, hu, rfl⟩
        exact ⟨_, ⟨u, hu, rfl⟩, rfl⟩

/-- **C101**, for the value of an attribute of any element: it does not matter, or it is one text in the value read. -/
theorem C101_attribute (dbg : Bool) (env : Env) (hok : EnvOk env) (ty : Ty) (d : Doc) (c : Elem → Forest) (hc : Around c) (x : Elem) (q : QName) (a b : List XAttr) :
    (∀ s s' v, readTy dbg env ty (d.with c { x with attrs := a ++ ⟨q, s⟩ :: b }).input = .ok (.ok v) ↔ readTy dbg env ty (d.with c { x with attrs := a ++ ⟨q, s'⟩ :: b }).input = .ok (.ok v)) ∨
    ∃ t C, Place C ∧ ∀ s v, readTy dbg env ty (d.with c { x with attrs := a ++ ⟨q, s⟩ :: b }).input = .ok (.ok v) ↔ ∃ w, parsed t s = some w ∧ v = C w :=
  place_within hok ty d c hc (fun s => { x with attrs := a ++ ⟨q, s⟩ :: b }) x.name (fun _ => rfl) fun ty' => attr_place hok ty' d q a b x

/-- **C101**, for the text of any element. -/
theorem C101_text (dbg : Bool) (env : Env) (hok : EnvOk env) (ty : Ty) (d : Doc) (c : Elem → Forest) (hc : Around c) (x : Elem) (cdata : Bool) (pos : Pos) :
    (∀ s s' v, readTy dbg env ty (d.with c { x with children := .chars s cdata pos .nil }).input = .ok (.ok v) ↔
      readTy dbg env ty (d.with c { x with children := .chars s' cdata pos .nil }).input = .ok (.ok v)) ∨
    ∃ t C, Place C ∧ ∀ s v, readTy dbg env ty (d.with c { x with children := .chars s cdata pos .nil }).input = .ok (.ok v) ↔ ∃ w, parsed t s = some w ∧ v = C w :=
  place_within hok ty d c hc (fun s => { x with children := .chars s cdata pos .nil }) x.name (fun _ => rfl) fun ty' => text_place hok ty' d cdata pos x

/-! ### An example -/

namespace Ex

/-- `<r id="7"><u:title>T</u:title><b>…</b><tag>1</tag></r>`, open for the element in `b`. -/
def around (x : Elem) : Forest :=
  leaf (qp "u" "title") "T" (.elem (q "b") [] [] (p 1) (.elem x.name x.attrs x.ns x.pos x.children x.endPos .nil) (p 3) (leaf (q "tag") "1" .nil))

theorem around_ok : Around around := .elem _ _ _ _ _ _ (.inside _ _ _ _ _ _ (.here _))

def flag (s : String) : Elem := { name := q "n", attrs := [], ns := [], pos := p 5, children := .chars s false (p 6) .nil, endPos := p 7 }

def openDoc : Doc := docOf [{ name := q "id", value := "7" }] .nil

/-- It is a place: the value of the field `n` of the payload. -/
example : ∃ t C, Place C ∧ (∀ s v, readTy true env (.strct 0) (openDoc.with around (flag s)).input = .ok (.ok v) ↔ ∃ w, parsed t s = some w ∧ v = C w) ∧
    (∃ w, parsed t "true" = some w ∧ C w = .strct [.text (.str "T"), .opt none, .vec [.text (.str "1")], .text (.str "7"), .enm 1 (some (.strct [.text (.bool true)]))]) := by
  have h1 : readTy true env (.strct 0) (openDoc.with around (flag "true")).input =
    .ok (.ok (.strct [.text (.str "T"), .opt none, .vec [.text (.str "1")], .text (.str "7"), .enm 1 (some (.strct [.text (.bool true)]))])) := rfl
  have h2 : readTy true env (.strct 0) (openDoc.with around (flag "false")).input =
    .ok (.ok (.strct [.text (.str "T"), .opt none, .vec [.text (.str "1")], .text (.str "7"), .enm 1 (some (.strct [.text (.bool false)]))])) := rfl
  rcases C101_text true env env_ok (.strct 0) openDoc around around_ok (flag "") false (p 6) with h | ⟨t, C, hC, h⟩
  · have := (h "true" "false" _).mp h1
    have := h2.symm.trans this
    simp at this
  · obtain ⟨w, hw, hv⟩ := (h "true" _).mp h1
    exact ⟨t, C, hC, h, w, hw, hv.symm⟩

/-- And for an attribute of that element. -/
example := C101_attribute true env env_ok (.strct 0) openDoc around around_ok (flag "true") (q "id") [] []

end Ex

end SX
