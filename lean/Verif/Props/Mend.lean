import Verif.Proof.Mend
import Verif.Spec.Mend
import Verif.Props.Prompt

/-
C110: mending a document one element at a time comes to an end.
-/
namespace SX
open Spec Reproduce LocalErr Repair Onward Prompt Mend

theorem endTags_append (a b : List (XEvent × Pos)) : endTags (a ++ b) = endTags a + endTags b := by
  induction a with
  | nil => simp [endTags]
  | cons e a ih =>
    obtain ⟨e, p⟩ := e
    cases e <;> simp only [List.cons_append, endTags, ih] <;> omega

/-- The faulty element of a document, with the events before and after it: the fault is found by its end tag (C109), and with something right instead everything up to there is accepted (C108). -/
theorem faulty_at (dbg : Bool) (env : Env) (hok : EnvOk env) (ty : Ty) (d : Doc) (E : Error) (h : readTy dbg env ty d.input = .ok (.error E)) :
    AboutRoot E ∨ ∃ path c x ty' E' pre post, Faulty (readTy dbg env) ty d path c x ty' E' ∧ E = Error.below (⟨d.root.name, d.root.pos⟩ :: path) E' ∧
      (∀ y, (d.with c y).input.items = pre ++ elemEvents y ++ post) ∧
      (∀ more final finalPos, readTy dbg env ty { items := pre ++ elemEvents x ++ more, final, finalPos } = .ok (.error E)) ∧
      ∀ y : Elem, y.At ⟨x.name, x.pos⟩ → (∃ w, readTy dbg env ty' ({ d with root := y } : Doc).input = .ok (.ok w)) → ∀ m p fp,
        readTy dbg env ty (cutAt (pre ++ elemEvents y) m p fp) = .ok (.error (tooEarly (pre ++ elemEvents y) m p)) := by
  have settle : ∀ (d2 : Doc) (P ends : List (XEvent × Pos)), readTy dbg env ty d2.input = .ok (.error E) → d2.input.items = P ++ ends →
      (∀ e ∈ ends, ∃ n p, e = (.endElement n, p)) → (openedBy P).length < E.stack.length →
      ∀ more final finalPos, readTy dbg env ty { items := P ++ more, final, finalPos } = .ok (.error E) := by
    intro d2 P ends h2 hi he hl more final finalPos
    obtain ⟨cc, hf, hr⟩ := doc_prompt dbg (Context.derived_propagating env) (fun _ => Context.deserTy_propagating env ty) d2 E h2
    obtain ⟨q, hq⟩ := found_within hf hi he hl
    exact hr _ ⟨q ++ more, by rw [hq, List.append_assoc]⟩
  have h0 := h
  obtain ⟨df, h1, rfl⟩ := (C44_first dbg env hok ty d E).mp h
  rcases body_goes (show bodyErr env ⟨d.root.attrs, kids env d.root.children, d.root.children.text⟩ ty = some df from h1) with h2 | ⟨a, k, b, ty1, df1, h2, h3, h4, h5⟩
  · exact .inl (near_about h2)
  · obtain ⟨path, c, x, ty', df', c2, pre, post, ends, f2, k2, g1, g2, g3, g4, g5, g6, g7, ⟨i1, i2⟩, g8, g9, g10, g11, g12, g13⟩ := kid_both env d.root.children a k b h2 ty1 df1 h3
    have hE : reported d.root df = Error.below (⟨d.root.name, d.root.pos⟩ :: path) (reported x df') := by
      rw [← below_reported d.root path ⟨x.name, x.pos⟩ x ⟨rfl, rfl⟩ df', h4, g5, g6]
    refine .inr ⟨path, c, x, ty', reported x df', upToRoot d ++ (.startElement d.root.name d.root.attrs d.root.ns, d.root.pos) :: pre,
      post ++ (.endElement d.root.name, d.root.endPos) :: miscEvents d.epilog,
      ⟨g1, by rw [Doc.with, g2], (C44_first dbg env hok ty' ({ d with root := x } : Doc) _).mpr ⟨df', g3, rfl⟩, near_about g4, by rw [← hE]; exact h0⟩, hE, ?_, ?_, ?_⟩
    · intro y
      rw [with_items, g7]
      simp [upToRoot]
    · refine settle { d with root := { d.root with children := f2 }, epilog := [], epilogOk := by simp } _ (ends ++ [(.endElement d.root.name, d.root.endPos)])
        ((C44_first dbg env hok ty _ _).mpr ⟨df, ?_, rfl⟩) ?_ ?_ ?_
      · show bodyErr env ⟨d.root.attrs, kids env f2, f2.text⟩ ty = some df
        rw [g11, h4]
        exact h5.wrong k2 [] _ _ g12 (by rw [own, g13, ← g12]; rfl)
      · simp [Doc.input, upToRoot, g9, miscEvents]
      · intro e he
        rcases List.mem_append.mp he with he | he
        · exact g10 e he
        · exact ⟨_, _, List.mem_singleton.mp he⟩
      · have : openedBy (upToRoot d ++ (.startElement d.root.name d.root.attrs d.root.ns, d.root.pos) :: pre ++ elemEvents x) = ⟨d.root.name, d.root.pos⟩ :: path := by
          rw [openedBy, List.foldl_append, List.foldl_append, opened_elem, List.foldl_cons, g8]
          rw [show List.foldl opened [] (upToRoot d) = [] from openedBy_miscs _ _]
          rfl
        rw [this, hE]
        simp [Error.below, reported]
    · rintro y hy ⟨w, hw⟩ m p fp
      have hy' : bodyErr env (y.body env) ty' = none := (C44_complete env hok ty' ({ d with root := y } : Doc)).mpr fun hn => by
        rw [C18_value dbg env hok] at hw
        rw [show bodyValue env (y.body env) ty' = some w from hw] at hn
        cases hn
      rcases C68_prefix dbg _ _ (Prefix.derived_passes env) (fun _ => Prefix.deserTy_passes env ty)
        (upToRoot d ++ (.startElement d.root.name d.root.attrs d.root.ns, d.root.pos) :: pre ++ elemEvents y) with h6 | ⟨r, -, h6⟩
      · exact h6 m p fp
      · exfalso
        have hr : ∀ q : Pos, ∃ df2, r = .ok (.error (reported d.root df2)) ∧ (⟨x.name, q⟩ : StackElem) ∈ df2.rel := by
          intro q
          obtain ⟨df2, e1, e2⟩ := (i2 y { x with pos := q } hy rfl hy' (by
            show bodyErr env (x.body env) ty' ≠ none
            rw [g3]; simp)).body h5 (c2 y { x with pos := q }).text
          refine ⟨df2, ?_, e2⟩
          have h7 := (C44_first dbg env hok ty (d.with (fun z => c2 y z) { x with pos := q }) (reported d.root df2)).mpr ⟨df2, e1, rfl⟩
          have h8 := h6 (elemEvents { x with pos := q } ++ post ++ (.endElement d.root.name, d.root.endPos) :: miscEvents d.epilog) .eof d.eofPos
          rw [← h8]
          refine Eq.trans ?_ h7
          show readTy dbg env ty _ = readTy dbg env ty _
          congr 1
          have h9 := with_items d (fun z => c2 y z) { x with pos := q }
          rw [i1] at h9
          have h10 : (d.with (fun z => c2 y z) { x with pos := q }).input = { items := (d.with (fun z => c2 y z) { x with pos := q }).input.items, final := .eof, finalPos := d.eofPos } := rfl
          rw [h10, h9]
          simp [upToRoot]
        obtain ⟨df2, e1, -⟩ := hr ⟨0, 0⟩
        obtain ⟨q, hq⟩ := fresh_pos (reported d.root df2).stack x.name
        obtain ⟨df3, e3, e4⟩ := hr q
        rw [e1] at e3
        simp only [Except.ok.injEq, Except.error.injEq] at e3
        rw [e3] at hq
        exact hq (by simp [reported, e4])

/-- Events that leave all open come before events that settle the result. -/
theorem later_of {dbg : Bool} {env : Env} {ty : Ty} {P1 P2 post1 post2 : List (XEvent × Pos)} {E : Error} (h : P1 ++ post1 = P2 ++ post2)
    (h1 : ∀ m p fp, readTy dbg env ty (cutAt P1 m p fp) = .ok (.error (tooEarly P1 m p)))
    (h2 : ∀ more final finalPos, readTy dbg env ty { items := P2 ++ more, final, finalPos } = .ok (.error E)) : ∃ q, q ≠ [] ∧ P2 = P1 ++ q ∧ post1 = q ++ post2 := by
  have key : ∀ q, P1 ≠ P2 ++ q := by
    rintro q rfl
    have a := h1 "a" ⟨0, 0⟩ ⟨0, 0⟩
    have b := h1 "b" ⟨0, 0⟩ ⟨0, 0⟩
    rw [cutAt, h2] at a b
    rw [a] at b
    simp [tooEarly] at b
  rcases List.append_eq_append_iff.mp h with ⟨q, hq1, hq2⟩ | ⟨q, hq1, -⟩
  · refine ⟨q, ?_, hq1, hq2⟩
    rintro rfl
    exact key [] (by rw [hq1]; simp)
  · exact absurd hq1 (key q)

theorem endTags_elem (P q pre : List (XEvent × Pos)) (x : Elem) (h : pre ++ elemEvents x = P ++ q) (hq : q ≠ []) : 0 < endTags q := by
  rcases List.eq_nil_or_concat q with rfl | ⟨q', e, rfl⟩
  · exact absurd rfl hq
  · rw [List.concat_eq_append] at h ⊢
    have h' : (pre ++ (.startElement x.name x.attrs x.ns, x.pos) :: x.children.events) ++ [(.endElement x.name, x.endPos)] = (P ++ q') ++ [e] := by
      simpa [elemEvents] using h
    have := List.append_inj_right' h' rfl
    simp only [List.cons.injEq, and_true] at this
    rw [endTags_append, ← this]
    simp [endTags]

/-- **C110**. If a document has a faulty element, and that is replaced by one that can be read, then either the document can be read, or what is wrong is about the root alone, or there is another
faulty element, and its end tag comes after the replaced one: in what came after the replaced element already. -/
theorem C110_progress (dbg : Bool) (env : Env) (hok : EnvOk env) (ty : Ty) (d : Doc) (E : Error) (h : readTy dbg env ty d.input = .ok (.error E)) :
    AboutRoot E ∨ ∃ path c x ty' E' pre post, Faulty (readTy dbg env) ty d path c x ty' E' ∧ (∀ y, (d.with c y).input.items = pre ++ elemEvents y ++ post) ∧
      ∀ y : Elem, y.At ⟨x.name, x.pos⟩ → (∃ w, readTy dbg env ty' ({ d with root := y } : Doc).input = .ok (.ok w)) →
        ∀ E2, readTy dbg env ty (d.with c y).input = .ok (.error E2) →
          AboutRoot E2 ∨ ∃ path2 c2 x2 ty2 E2' between post2, Faulty (readTy dbg env) ty (d.with c y) path2 c2 x2 ty2 E2' ∧
            E2 = Error.below (⟨d.root.name, d.root.pos⟩ :: path2) E2' ∧ post = between ++ (.endElement x2.name, x2.endPos) :: post2 := by
  rcases faulty_at dbg env hok ty d E h with h1 | ⟨path, c, x, ty', E', pre, post, h1, h2, h3, h4, h5⟩
  · exact .inl h1
  · refine .inr ⟨path, c, x, ty', E', pre, post, h1, h3, fun y hy hw E2 hE2 => ?_⟩
    rcases faulty_at dbg env hok ty (d.with c y) E2 hE2 with g1 | ⟨path2, c2, x2, ty2, E2', pre2, post2, g1, g2, g3, g4, g5⟩
    · exact .inl g1
    · right
      have hitems : pre ++ elemEvents y ++ post = pre2 ++ elemEvents x2 ++ post2 := by rw [← h3 y, ← g3 x2, ← g1.here]
      obtain ⟨q, hq, hq1, hq2⟩ := later_of hitems (h5 y hy hw) g4
      rcases List.eq_nil_or_concat q with rfl | ⟨q', e, rfl⟩
      · exact absurd rfl hq
      · rw [List.concat_eq_append] at hq1 hq2
        have h' : (pre2 ++ (.startElement x2.name x2.attrs x2.ns, x2.pos) :: x2.children.events) ++ [(.endElement x2.name, x2.endPos)] = (pre ++ elemEvents y ++ q') ++ [e] := by
          simpa [elemEvents] using hq1
        have := List.append_inj_right' h' rfl
        simp only [List.cons.injEq, and_true] at this
        exact ⟨path2, c2, x2, ty2, E2', q', post2, g1, g2, by rw [hq2, ← this]; simp⟩

theorem mends_from (dbg : Bool) (env : Env) (hok : EnvOk env) (ty : Ty) (R : Elem → Ty → Elem) (hR : ∀ x ty, (R x ty).At ⟨x.name, x.pos⟩) : ∀ (n : Nat) (d : Doc) (P post : List (XEvent × Pos)),
    d.input.items = P ++ post → endTags post ≤ n → (P = [] ∨ ∀ m p fp, readTy dbg env ty (cutAt P m p fp) = .ok (.error (tooEarly P m p))) →
    ∃ k d', k ≤ n ∧ Mends (readTy dbg env) ty R k d d' ∧ ((∃ w, readTy dbg env ty d'.input = .ok (.ok w)) ∨ (∃ E, readTy dbg env ty d'.input = .ok (.error E) ∧ AboutRoot E) ∨
      ∃ path c x ty' E', Faulty (readTy dbg env) ty d' path c x ty' E' ∧ ¬ ∃ w, readTy dbg env ty' ({ d' with root := R x ty' } : Doc).input = .ok (.ok w)) := by
  intro n
  induction n using Nat.strongRecOn with
  | _ n ih =>
    intro d P post hi hn hP
    cases hr : readTy dbg env ty d.input with
    | error f =>
      exfalso
      rw [readTy_doc] at hr
      rcases readDoc_first env hok ty d with ⟨v, h, -⟩ | ⟨df, h, -⟩ <;> rw [h] at hr <;> cases hr
    | ok r =>
      cases r with
      | ok w => exact ⟨0, d, Nat.zero_le _, .done d, .inl ⟨w, hr⟩⟩
      | error E =>
        rcases faulty_at dbg env hok ty d E hr with h1 | ⟨path, c, x, ty', E', pre, post', h1, h2, h3, h4, h5⟩
        · exact ⟨0, d, Nat.zero_le _, .done d, .inr (.inl ⟨E, hr, h1⟩)⟩
        · by_cases hw : ∃ w, readTy dbg env ty' ({ d with root := R x ty' } : Doc).input = .ok (.ok w)
          · have hitems : P ++ post = pre ++ elemEvents x ++ post' := by rw [← hi, ← h3 x, ← h1.here]
            have hlt : endTags post' < endTags post := by
              rcases hP with rfl | hP
              · rw [List.nil_append] at hitems
                have := endTags_elem [] (pre ++ elemEvents x) pre x (by simp) (by simp [elemEvents])
                rw [hitems, endTags_append (pre ++ elemEvents x)]
                omega
              · obtain ⟨q, hq, hq1, hq2⟩ := later_of hitems hP h4
                have := endTags_elem P q pre x hq1 hq
                rw [hq2, endTags_append]
                omega
            obtain ⟨k, d', hk, hm, hd'⟩ := ih (endTags post') (by omega) (d.with c (R x ty')) (pre ++ elemEvents (R x ty')) post' (h3 _) (Nat.le_refl _) (.inr (h5 _ (hR x ty') hw))
            exact ⟨k + 1, d', by omega, .step h1 hw hm, hd'⟩
          · exact ⟨0, d, Nat.zero_le _, .done d, .inr (.inr ⟨path, c, x, ty', E', h1, hw⟩)⟩

/-- C110: however faulty elements are replaced, under the same name at the same position: after at most as many replacements as the document had elements, it can be read, or what is wrong is about the
root alone, or there is no replacement for a faulty element that can be read. -/
theorem C110_mended (dbg : Bool) (env : Env) (hok : EnvOk env) (ty : Ty) (R : Elem → Ty → Elem) (hR : ∀ x ty, (R x ty).At ⟨x.name, x.pos⟩) (d : Doc) :
    ∃ k d', k ≤ endTags d.input.items ∧ Mends (readTy dbg env) ty R k d d' ∧
      ((∃ w, readTy dbg env ty d'.input = .ok (.ok w)) ∨ (∃ E, readTy dbg env ty d'.input = .ok (.error E) ∧ AboutRoot E) ∨
        ∃ path c x ty' E', Faulty (readTy dbg env) ty d' path c x ty' E' ∧ ¬ ∃ w, readTy dbg env ty' ({ d' with root := R x ty' } : Doc).input = .ok (.ok w)) :=
  mends_from dbg env hok ty R hR _ d [] d.input.items rfl (Nat.le_refl _) (.inl rfl)

theorem Faulty.same {rd rd' : Ty → Input → Except Fault (Except Error Val)} (hs : ∀ ty i r, rd ty i = .ok r ↔ rd' ty i = .ok r) {ty : Ty} {d : Doc} {path : List StackElem} {c : Elem → Forest}
    {x : Elem} {ty' : Ty} {E' : Error} (h : Faulty rd ty d path c x ty' E') : Faulty rd' ty d path c x ty' E' :=
  ⟨h.within, h.here, (hs _ _ _).mp h.alone, h.about, (hs _ _ _).mp h.error⟩

theorem Mends.same {rd rd' : Ty → Input → Except Fault (Except Error Val)} (hs : ∀ ty i r, rd ty i = .ok r ↔ rd' ty i = .ok r) {ty : Ty} {R : Elem → Ty → Elem} {k : Nat} {d d' : Doc}
    (h : Mends rd ty R k d d') : Mends rd' ty R k d d' := by
  induction h with
  | done d => exact .done d
  | step h hw _ ih =>
    obtain ⟨w, hw⟩ := hw
    exact .step (Faulty.same hs h) ⟨w, (hs _ _ _).mp hw⟩ ih

open Spec.Gen Gen SourceOk in
/-- C110 for the code emitted for a program. -/
theorem C110_crate (c : Crate) (ho : InOrder c) (hap : Apart c) (code : Emitted) (types : Types) (ha : Accepted c code) (ht : c.Tied code types) (dbg : Bool) (ty : Ty)
    (R : Elem → Ty → Elem) (hR : ∀ x ty, (R x ty).At ⟨x.name, x.pos⟩) (d : Doc) :
    ∃ k d', k ≤ endTags d.input.items ∧ Mends (c.read code types dbg) ty R k d d' ∧
      ((∃ w, c.read code types dbg ty d'.input = .ok (.ok w)) ∨ (∃ E, c.read code types dbg ty d'.input = .ok (.error E) ∧ AboutRoot E) ∨
        ∃ path f x ty' E', Faulty (c.read code types dbg) ty d' path f x ty' E' ∧ ¬ ∃ w, c.read code types dbg ty' ({ d' with root := R x ty' } : Doc).input = .ok (.ok w)) := by
  obtain ⟨env, hd⟩ := C65_env c code ha
  have hs : ∀ ty i r, readTy dbg env ty i = .ok r ↔ c.read code types dbg ty i = .ok r := fun ty i r => (whole_read ha hap.noSkip hd ht dbg ty i r).symm
  obtain ⟨k, d', h1, h2, h3⟩ := C110_mended dbg env ((C75_apart hd ho.variantIdents).mpr hap) ty R hR d
  refine ⟨k, d', h1, Mends.same hs h2, ?_⟩
  simp only [hs] at h3
  rcases h3 with h3 | h3 | ⟨path, f, x, ty', E', h3, h4⟩
  · exact .inl h3
  · exact .inr (.inl h3)
  · exact .inr (.inr ⟨path, f, x, ty', E', Faulty.same hs h3, h4⟩)

/-! ### Examples -/

namespace Ex

/-- `maybe` is not a `bool`; with `true` instead the document can be read, after one replacement. -/
example : ∃ d', Mends (readTy true env) (.strct 0) (fun x _ => { flag "true" with name := x.name, pos := x.pos }) 1 (openDoc.with around (flag "maybe")) d' ∧
    ∃ w, readTy true env (.strct 0) d'.input = .ok (.ok w) := by
  have h : ∃ E', readTy true env (.text .bool) ({ openDoc.with around (flag "maybe") with root := flag "maybe" } : Doc).input = .ok (.error E') ∧ E'.stack = [⟨q "n", p 5⟩] ∧
      readTy true env (.strct 0) (openDoc.with around (flag "maybe")).input = .ok (.error (Error.below [⟨q "r", openDoc.root.pos⟩, ⟨q "b", p 1⟩] E')) := ⟨_, rfl, rfl, rfl⟩
  obtain ⟨E', h1, h2, h3⟩ := h
  exact ⟨_, .step (path := [⟨q "b", p 1⟩]) (c := around) (x := flag "maybe") (ty' := .text .bool) (E' := E') ⟨around_in, rfl, h1, ⟨_, .inl h2⟩, h3⟩ ⟨.text (.bool true), rfl⟩ (.done _), _, rfl⟩

end Ex

end SX
