import Verif.Proof.Clash
import Verif.Props.Open

/-
C71: declarations in which several fields, or several variants, have one name.
-/
namespace SX
open Open Spec.Open Spec.Clash

namespace ExC

/-- Two element fields and two attribute fields of one name each; the elements have to be there. -/
def fields : List ExO.F :=
  [⟨⟨none, "a"⟩, .element ExO.counter, none⟩, ⟨⟨none, "a"⟩, .element ExO.counter, none⟩,
   ⟨⟨none, "k"⟩, .attribute ExO.length, some (.ok 8)⟩, ⟨⟨none, "k"⟩, .attribute ExO.length, some (.ok 9)⟩]

/-- The same fields, the first element with a default as well. -/
def lenient : List ExO.F :=
  [⟨⟨none, "a"⟩, .element ExO.counter, some (.ok 6)⟩, ⟨⟨none, "a"⟩, .element ExO.counter, some (.ok 7)⟩,
   ⟨⟨none, "k"⟩, .attribute ExO.length, some (.ok 8)⟩, ⟨⟨none, "k"⟩, .attribute ExO.length, some (.ok 9)⟩]

/-- With another name before them. -/
def three : List ExO.F :=
  [⟨⟨none, "0"⟩, .element ExO.counter, some (.ok 5)⟩, ⟨⟨none, "a"⟩, .element ExO.counter, some (.ok 6)⟩,
   ⟨⟨none, "a"⟩, .element ExO.counter, some (.ok 7)⟩]

theorem fields_sound : ∀ f ∈ fields, ∀ raw, f.kind = .flatten raw → Sound raw := by
  intro f hf raw hk
  simp only [fields, List.mem_cons, List.not_mem_nil, or_false] at hf
  rcases hf with rfl | rfl | rfl | rfl <;> exact nomatch hk

def history : List (Call Unit) :=
  [.attr ⟨"", "k"⟩ "xyz", .elem (ExO.child "a") ExO.nothing, .elem (ExO.child "a") ExO.nothing]

end ExC

/-- C71: for every struct, also one in which several fields have one name: of the element fields of one name one is chosen, and of the
attribute fields of one name; the same ones for all documents.  A chosen field gets what C50 says.  The others never get anything from a document:
whatever is read, they hold their default, or what `missing` returned. -/
theorem C71_value {σ τ α : Type} (fields : List (OField σ τ α)) (hF : ∀ f ∈ fields, ∀ raw, f.kind = .flatten raw → Sound raw) :
    ∃ chosen : Nat → Prop, ChoosesField fields chosen ∧
      ∀ (h : List (Call σ)) (fs fs' : List (OCell τ α)) (d : Option (Ret Empty (List α))) (vs : List α),
        run (structRaw fields) h (structRaw fields).new = .ok fs → (structRaw fields).finalize fs d = .ok (fs', .ok ()) →
        (structRaw fields).out fs' = some vs →
        ∀ (p : Nat) f, fields[p]? = some f → (∀ raw, f.kind ≠ .flatten raw) → ∃ v, vs[p]? = some v ∧
          (chosen p → found f h = some v ∨ found f h = none ∧ absent f = .ok v) ∧ (¬ chosen p → absent f = .ok v) := by
  refine ⟨fun p => ∃ f, fields[p]? = some f ∧ Hears fields p f, ?_, ?_⟩
  · intro p f hp hk
    obtain ⟨q, g, h1, h2, h3, h4⟩ := hears_exists hp hk
    refine ⟨q, ⟨g, h1, h2, h3, g, h1, h4⟩, ?_⟩
    rintro q' g' h5 h6 h7 ⟨g'', h8, h9⟩
    rw [h5] at h8
    cases h8
    refine hears_unique (f := g') (g := g) ?_ (h3.trans h7.symm) h9 h4
    rcases h2 with ⟨i, j, hi, hj⟩ | ⟨i, j, hi, hj⟩ <;> rcases h6 with ⟨i', j', hi', hj'⟩ | ⟨i', j', hi', hj'⟩
    · exact .inl ⟨_, _, hj', hj⟩
    · rw [hi] at hi'; exact nomatch hi'
    · rw [hi] at hi'; exact nomatch hi'
    · exact .inr ⟨_, _, hj', hj⟩
  · intro h fs fs' d vs hr hf hv p f hp hk
    by_cases hh : Hears fields p f
    · obtain ⟨v, h1, h2⟩ := finalizeCells_get hf hv hp hk (run_found_heard hF hp hh hk h fs hr)
      exact ⟨v, h1, fun _ => h2, fun hn => absurd ⟨f, hp, hh⟩ hn⟩
    · obtain ⟨v, h1, h2⟩ := finalizeCells_get hf hv hp hk (c := none)
        (run_unheard hF hp hh hk h _ fs (cellsOk_new fields) hr _ (newCells_plain hp hk))
      refine ⟨v, h1, ?_, fun _ => ?_⟩
      · rintro ⟨g, hg, h3⟩
        rw [hp] at hg
        cases hg
        exact absurd h3 hh
      · rcases h2 with h2 | h2
        · exact nomatch h2
        · exact h2.2

example : ∃ fs fs', run (structRaw ExC.lenient) ExC.history (structRaw ExC.lenient).new = .ok fs ∧
    (structRaw ExC.lenient).finalize fs none = .ok (fs', .ok ()) ∧ (structRaw ExC.lenient).out fs' = some [6, 2, 8, 3] := ⟨_, _, rfl, rfl, rfl⟩
/-- Which one is chosen depends on the rest of the declaration: here the first `a` is. -/
example : ∃ fs fs', run (structRaw ExC.three) ExC.history (structRaw ExC.three).new = .ok fs ∧
    (structRaw ExC.three).finalize fs none = .ok (fs', .ok ()) ∧ (structRaw ExC.three).out fs' = some [5, 2, 7] := ⟨_, _, rfl, rfl, rfl⟩

/-- C71: if two element fields (or two attribute fields) that have to be there (`missing` fails, and no default) have one name, no
document is accepted. -/
theorem C71_required {σ τ α : Type} (fields : List (OField σ τ α)) (hF : ∀ f ∈ fields, ∀ raw, f.kind = .flatten raw → Sound raw)
    (p q : Nat) (f g : OField σ τ α) (hp : fields[p]? = some f) (hq : fields[q]? = some g) (hpq : p ≠ q) (hs : SameSort f g)
    (hn : g.name.expanded = f.name.expanded) (hf : ∀ v, absent f ≠ .ok v) (hg : ∀ v, absent g ≠ .ok v)
    (h : List (Call σ)) (d : Option (Ret Empty (List α))) :
    ∃ fs fs' r, run (structRaw fields) h (structRaw fields).new = .ok fs ∧ (structRaw fields).finalize fs d = .ok (fs', r) ∧ r ≠ .ok () := by
  obtain ⟨fs, h1, h2⟩ := C49_struct fields hF h
  obtain ⟨fs', r, h3, h4⟩ := h2 d
  refine ⟨fs, fs', r, h1, h3, ?_⟩
  rintro rfl
  obtain ⟨vs, h5⟩ := h4 rfl
  obtain ⟨chosen, hc, hall⟩ := C71_value fields hF
  have hfk : ∀ raw, f.kind ≠ .flatten raw := by
    rcases hs with ⟨i, j, hi, hj⟩ | ⟨i, j, hi, hj⟩ <;> (rw [hi]; exact nofun)
  have hgk : ∀ raw, g.kind ≠ .flatten raw := by
    rcases hs with ⟨i, j, hi, hj⟩ | ⟨i, j, hi, hj⟩ <;> (rw [hj]; exact nofun)
  obtain ⟨v, -, -, h6⟩ := hall h fs fs' d vs h1 h3 h5 p f hp hfk
  obtain ⟨w, -, -, h7⟩ := hall h fs fs' d vs h1 h3 h5 q g hq hgk
  have h8 : chosen p := Classical.byContradiction fun hh => hf v (h6 hh)
  have h9 : chosen q := Classical.byContradiction fun hh => hg w (h7 hh)
  obtain ⟨z, -, huniq⟩ := hc p f hp hfk
  have hsf : SameSort f f := by
    rcases hs with ⟨i, j, hi, hj⟩ | ⟨i, j, hi, hj⟩
    · exact .inl ⟨_, _, hi, hi⟩
    · exact .inr ⟨_, _, hi, hi⟩
  exact hpq ((huniq p f hp hsf rfl h8).trans (huniq q g hq hs hn h9).symm)

example : ∃ fs fs', run (structRaw ExC.fields) ExC.history (structRaw ExC.fields).new = .ok fs ∧
    (structRaw ExC.fields).finalize fs none = .ok (fs', .err (.wrap (.missingElement ⟨"", "a"⟩))) := ⟨_, _, rfl, rfl⟩

/-- C71: for every enum, also one in which several variants have one name (or whose table `find` cannot search, see C09): each name
stands for at most one variant, the same one for all documents; what `finalize` leaves is what is held according to that. -/
theorem C71_enum {σ α : Type} (ident : String) (vs : List (OVariant σ α)) :
    ∃ choice : EName → Option Nat, ChoosesVariant vs choice ∧
      (∀ (h : List (Call σ)) (d : Option (Ret Empty (Nat × Option α))),
        ∃ st st' res, run (enumRaw ident vs) h (enumRaw ident vs).new = .ok st ∧
          (enumRaw ident vs).finalize st d = .ok (st', res) ∧
          match heldBy choice vs none h, d with
          | some x, _ => res = .ok () ∧ (enumRaw ident vs).out st' = some x
          | none, some (.ok y) => res = .ok () ∧ (enumRaw ident vs).out st' = some y
          | none, some (.err e) => nomatch e
          | none, some .panic => res = .panic
          | none, none => res = .err (.wrap (.cantBeEmpty ident))) ∧
      ∀ (h : List (Call σ)) i q, heldBy choice vs none h = some (i, q) → ∃ v, vs[i]? = some v ∧ choice v.name.expanded = some i ∧
        ∃ info s, Call.elem info s ∈ h ∧ info.name.expanded = v.name.expanded := by
  refine ⟨choice vs, choice_ok vs, fun h d => ?_, fun h i q hh => ?_⟩
  · obtain ⟨st, h1, h2, h3⟩ := enum_run_heldBy ident vs h (enumRaw ident vs).new (.inl ⟨rfl, rfl⟩)
    rw [show (enumRaw ident vs).new.cell = none from rfl] at h3
    rw [← h3]
    obtain ⟨ini, cell⟩ := st
    rcases h2 with ⟨h4, h5⟩ | ⟨h4, i, v, p, h5, -⟩
    · simp only at h4 h5
      subst h4 h5
      cases d with
      | none => exact ⟨_, _, _, h1, rfl, rfl⟩
      | some d =>
        cases d with
        | ok y => exact ⟨_, _, _, h1, rfl, rfl, rfl⟩
        | err e => exact nomatch e
        | panic => exact ⟨_, _, _, h1, rfl, rfl⟩
    · simp only at h4 h5
      subst h4 h5
      exact ⟨_, _, _, h1, rfl, rfl, rfl⟩
  · obtain ⟨info, s, h1, h2⟩ := heldBy_chosen h i q hh
    obtain ⟨v, h3, h4⟩ := (choice_ok vs).named _ _ h2
    exact ⟨v, h3, by rw [h4]; exact h2, info, s, h1, h4.symm⟩

/-- Two variants of one name: the second is the one that is read. -/
example : ∃ st, run (enumRaw "E" [⟨⟨none, "a"⟩, some ExO.picky⟩, ⟨⟨none, "a"⟩, none⟩]) ExC.history
    (enumRaw "E" [⟨⟨none, "a"⟩, some ExO.picky⟩, ⟨⟨none, "a"⟩, none⟩]).new = .ok st ∧ st.cell = some (1, none) := ⟨_, rfl, rfl⟩

end SX
