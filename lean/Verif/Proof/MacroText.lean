import Verif.Proof.Macro

/-
The front end of the derive macros for text types.
-/
namespace SX
open Spec

def wsOf : String → Option WhiteSpace
  | "preserve" => some .preserve
  | "replace" => some .replace
  | "collapse" => some .collapse
  | _ => none

def modeOf : String → Option TextMode
  | "std" => some .std
  | "restriction" => some .restriction
  | "union" => some .union
  | _ => none

theorem wsOf_some (v : String) (w : WhiteSpace) :
    wsOf v = some w ↔ (v = "preserve" ∧ w = .preserve) ∨ (v = "replace" ∧ w = .replace) ∨ (v = "collapse" ∧ w = .collapse) := by
  unfold wsOf
  split <;> simp_all <;> exact eq_comm

theorem modeOf_some (v : String) (w : TextMode) :
    modeOf v = some w ↔ (v = "std" ∧ w = .std) ∨ (v = "restriction" ∧ w = .restriction) ∨ (v = "union" ∧ w = .union) := by
  unfold modeOf
  split <;> simp_all <;> exact eq_comm

theorem wsOf_isSome (v : String) : (∃ w, wsOf v = some w) ↔ v ∈ ["preserve", "replace", "collapse"] := by
  simp only [wsOf_some, List.mem_cons, List.not_mem_nil, or_false]
  constructor
  · rintro ⟨w, h | h | h⟩ <;> simp [h.1]
  · rintro (h | h | h)
    · exact ⟨_, .inl ⟨h, rfl⟩⟩
    · exact ⟨_, .inr (.inl ⟨h, rfl⟩)⟩
    · exact ⟨_, .inr (.inr ⟨h, rfl⟩)⟩

theorem modeOf_isSome (v : String) : (∃ w, modeOf v = some w) ↔ v ∈ ["std", "restriction", "union"] := by
  simp only [modeOf_some, List.mem_cons, List.not_mem_nil, or_false]
  constructor
  · rintro ⟨w, h | h | h⟩ <;> simp [h.1]
  · rintro (h | h | h)
    · exact ⟨_, .inl ⟨h, rfl⟩⟩
    · exact ⟨_, .inr (.inl ⟨h, rfl⟩)⟩
    · exact ⟨_, .inr (.inr ⟨h, rfl⟩)⟩

/-- An item understood on text types. -/
def UndX (i : NMeta) : Prop :=
  (∃ v w, i = kv "whitespace" v ∧ wsOf v = some w) ∨ ∃ v md, i = kv "mode" v ∧ modeOf v = some md

theorem textItem_cases (s : TextState) (i : NMeta) :
    (∃ v w, i = kv "whitespace" v ∧ wsOf v = some w ∧ textItem s i = { s with ws := w }) ∨
    (∃ v md, i = kv "mode" v ∧ modeOf v = some md ∧ s.mode = none ∧ textItem s i = { s with mode := some md }) ∨
    (∃ e, textItem s i = { s with errs := s.errs ++ [e] } ∧ ((∃ x, i = .nameValue (some "mode") x ∧ s.mode ≠ none) ∨ ¬ UndX i)) := by
  unfold textItem
  split
  · exact .inl ⟨_, _, rfl, rfl, rfl⟩
  · exact .inl ⟨_, _, rfl, rfl, rfl⟩
  · exact .inl ⟨_, _, rfl, rfl, rfl⟩
  · rename_i v h1 h2 h3
    refine .inr (.inr ⟨_, rfl, .inr ?_⟩)
    rintro (⟨v', w, he, hw⟩ | ⟨v', w, he, -⟩)
    · simp [kv] at he
      subst he
      rw [wsOf_some] at hw
      rcases hw with h | h | h
      · exact h1 h.1
      · exact h2 h.1
      · exact h3 h.1
    · simp [kv] at he
  · refine .inr (.inr ⟨_, rfl, .inr ?_⟩)
    simp [UndX, kv]
  · rename_i lit
    by_cases hs : s.mode.isSome
    · rw [if_pos hs]
      refine .inr (.inr ⟨_, rfl, .inl ⟨_, rfl, ?_⟩⟩)
      intro h; rw [h] at hs; simp at hs
    · rw [if_neg hs]
      have hn : s.mode = none := by simpa using hs
      split
      · exact .inr (.inl ⟨_, _, rfl, rfl, hn, rfl⟩)
      · exact .inr (.inl ⟨_, _, rfl, rfl, hn, rfl⟩)
      · exact .inr (.inl ⟨_, _, rfl, rfl, hn, rfl⟩)
      · rename_i v h1 h2 h3
        refine .inr (.inr ⟨_, rfl, .inr ?_⟩)
        rintro (⟨v', w, he, -⟩ | ⟨v', w, he, hw⟩)
        · simp [kv] at he
        · simp [kv] at he
          subst he
          rw [modeOf_some] at hw
          rcases hw with h | h | h
          · exact h1 h.1
          · exact h2 h.1
          · exact h3 h.1
      · refine .inr (.inr ⟨_, rfl, .inr ?_⟩)
        simp [UndX, kv]
  · rename_i h1 h2 h3 h4 h5 h6
    refine .inr (.inr ⟨_, rfl, .inr ?_⟩)
    rintro (⟨v', w, rfl, -⟩ | ⟨v', w, rfl, -⟩)
    · exact h4 _ rfl
    · exact h6 _ rfl

/-- The white space mode after some items. -/
def newWs (ws : WhiteSpace) (l : List NMeta) : WhiteSpace :=
  match lastVal "whitespace" l with
  | some (.str v) => (wsOf v).getD ws
  | _ => ws

structure TextRun (s : TextState) (l : List NMeta) (s' : TextState) : Prop where
  errs_iff : s'.errs = [] ↔ s.errs = [] ∧ (∀ i ∈ l, UndX i) ∧ (s.mode ≠ none → NoneOf "mode" l) ∧ AtMostOne "mode" l
  ws : s'.errs = [] → s'.ws = newWs s.ws l
  keep : s'.errs = [] → NoneOf "mode" l → s'.mode = s.mode
  mode : s'.errs = [] → ∀ v, kv "mode" v ∈ l → s'.mode = modeOf v

theorem textFold_spec (l : List NMeta) (s : TextState) : TextRun s l (l.foldl textItem s) := by
  induction l generalizing s with
  | nil => exact { errs_iff := by simp [NoneOf, AtMostOne], ws := fun _ => rfl, keep := fun _ _ => rfl, mode := by simp }
  | cons i l ih =>
    rw [List.foldl_cons]
    rcases textItem_cases s i with ⟨v, w, rfl, hw, h⟩ | ⟨v, md, rfl, hmd, hs, h⟩ | ⟨e, h, hbad⟩
    · rw [h]
      have ih := ih { s with ws := w }
      have hi : ∀ x, kv "whitespace" v ≠ .nameValue (some "mode") x := by simp [kv]
      refine { errs_iff := ?_, ws := ?_, keep := ?_, mode := ?_ }
      · rw [ih.errs_iff, forall_mem_cons_iff, noneOf_cons_other hi, atMostOne_cons_other hi]
        have : UndX (kv "whitespace" v) := .inl ⟨v, w, rfl, hw⟩
        simp only [this, true_and]
      · intro he
        rw [ih.ws he]
        unfold newWs
        rw [show kv "whitespace" v = .nameValue (some "whitespace") (.str v) from rfl, lastVal_cons_self]
        cases hl : lastVal "whitespace" l with
        | none => simp [hw]
        | some x =>
          cases x with
          | other =>
            exfalso
            obtain ⟨pre, post, hpp, -⟩ := (lastVal_some _ _ _).mp hl
            have := (ih.errs_iff.mp he).2.1 (.nameValue (some "whitespace") .other) (by rw [hpp]; simp)
            simp [UndX, kv] at this
          | str v' =>
            obtain ⟨pre, post, hpp, -⟩ := (lastVal_some _ _ _).mp hl
            have := (ih.errs_iff.mp he).2.1 (.nameValue (some "whitespace") (.str v')) (by rw [hpp]; simp)
            simp [UndX, kv] at this
            obtain ⟨w', hw'⟩ := this
            simp [hw']
      · intro he hn
        rw [ih.keep he ((noneOf_cons_other hi).mp hn)]
      · intro he v' hv'
        rcases List.mem_cons.mp hv' with hv' | hv'
        · simp [kv] at hv'
        · exact ih.mode he v' hv'
    · rw [h]
      have ih := ih { s with mode := some md }
      refine { errs_iff := ?_, ws := ?_, keep := ?_, mode := ?_ }
      · rw [ih.errs_iff, forall_mem_cons_iff, show kv "mode" v = .nameValue (some "mode") (.str v) from rfl, atMostOne_cons_self]
        have : UndX (.nameValue (some "mode") (.str v)) := .inr ⟨v, md, rfl, hmd⟩
        simp only [this, true_and, hs, ne_eq, not_true, false_implies, reduceCtorEq, not_false_eq_true, true_implies]
      · intro he
        rw [ih.ws he]
        unfold newWs
        rw [lastVal_cons_other _ _ _ (by simp [kv])]
      · intro _ hn
        exact absurd (List.mem_cons_self) (hn (.str v))
      · intro he v' hv'
        rcases List.mem_cons.mp hv' with hv' | hv'
        · simp [kv] at hv'
          subst hv'
          have := (ih.errs_iff.mp he).2.2.1 (by simp)
          rw [ih.keep he this, hmd]
        · have := (ih.errs_iff.mp he).2.2.1 (by simp)
          exact absurd hv' (this _)
    · rw [h]
      have ih := ih { s with errs := s.errs ++ [e] }
      have hne : ¬ (List.foldl textItem { s with errs := s.errs ++ [e] } l).errs = [] := by
        intro he
        have := (ih.errs_iff.mp he).1
        simp at this
      refine { errs_iff := ⟨fun he => absurd he hne, ?_⟩, ws := fun he => absurd he hne, keep := fun he => absurd he hne, mode := fun he => absurd he hne }
      rintro ⟨-, h1, h2, -⟩
      rcases hbad with ⟨x, rfl, hx⟩ | hbad
      · exact absurd (List.mem_cons_self) (h2 hx x)
      · exact absurd (h1 i (by simp)) hbad

theorem newWs_spec {l : List NMeta} (h : ∀ i ∈ l, UndX i) : WsIs l (newWs .preserve l) := by
  unfold newWs WsIs
  cases hl : lastVal "whitespace" l with
  | none => exact .inl ⟨(lastVal_none _ _).mp hl, rfl⟩
  | some x =>
    have hl' := (lastVal_some _ _ _).mp hl
    obtain ⟨pre, post, hpp, -⟩ := hl'
    have := h (.nameValue (some "whitespace") x) (by rw [hpp]; simp)
    cases x with
    | other => simp [UndX, kv] at this
    | str v =>
      simp [UndX, kv] at this
      obtain ⟨w, hw⟩ := this
      simp only [hw, Option.getD_some]
      have hl' := (lastVal_some _ _ _).mp hl
      right
      rw [wsOf_some] at hw
      rcases hw with ⟨rfl, rfl⟩ | ⟨rfl, rfl⟩ | ⟨rfl, rfl⟩
      · exact .inl ⟨hl', rfl⟩
      · exact .inr (.inl ⟨hl', rfl⟩)
      · exact .inr (.inr ⟨hl', rfl⟩)

theorem textAttr_spec (attrs : List Attr) :
    ((textAttr attrs []).errs = [] ↔ AttrsOk attrs ∧ (∀ i ∈ attrItems attrs, UndX i) ∧ AtMostOne "mode" (attrItems attrs)) ∧
    ((textAttr attrs []).errs = [] → WsIs (attrItems attrs) (textAttr attrs []).ws) ∧
    ((textAttr attrs []).errs = [] → ∀ md, (textAttr attrs []).mode = some md ↔ ∃ v, kv "mode" v ∈ attrItems attrs ∧ modeOf v = some md) := by
  have hg := getMetaItems_spec attrs []
  unfold textAttr
  generalize getMetaItems attrs [] = g at hg
  obtain ⟨items, errs1⟩ := g
  simp only at hg ⊢
  obtain ⟨rfl, herr⟩ := hg
  have run := textFold_spec (attrItems attrs) { ws := .preserve, mode := none, errs := errs1 }
  generalize List.foldl textItem { ws := .preserve, mode := none, errs := errs1 } (attrItems attrs) = s at run
  simp only [true_and] at herr
  refine ⟨?_, ?_, ?_⟩
  · rw [run.errs_iff]
    simp [herr]
  · intro he
    rw [run.ws he]
    exact newWs_spec (run.errs_iff.mp he).2.1
  · intro he md
    constructor
    · intro h
      by_cases hn : NoneOf "mode" (attrItems attrs)
      · rw [run.keep he hn] at h; simp at h
      · unfold NoneOf at hn
        have : ∃ x, NMeta.nameValue (some "mode") x ∈ attrItems attrs := Classical.byContradiction fun hh => hn fun x hx => hh ⟨x, hx⟩
        obtain ⟨x, hx⟩ := this
        cases x with
        | other =>
          have := (run.errs_iff.mp he).2.1 _ hx
          simp [UndX, kv] at this
        | str v =>
          refine ⟨v, hx, ?_⟩
          rw [← run.mode he v hx]; exact h
    · rintro ⟨v, hv, hm⟩
      rw [run.mode he v hv, hm]

theorem atMostOne_unique {key : String} {l : List NMeta} (h : AtMostOne key l) {x y : Lit} (hx : NMeta.nameValue (some key) x ∈ l)
    (hy : NMeta.nameValue (some key) y ∈ l) : x = y := by
  induction l with
  | nil => simp at hx
  | cons i l ih =>
    unfold AtMostOne at h
    rw [List.pairwise_cons] at h
    rcases List.mem_cons.mp hx with hx | hx <;> rcases List.mem_cons.mp hy with hy | hy
    · rw [← hx] at hy; simpa using hy.symm
    · exact absurd ⟨⟨x, hx.symm⟩, ⟨y, rfl⟩⟩ (h.1 _ hy)
    · exact absurd ⟨⟨y, hy.symm⟩, ⟨x, rfl⟩⟩ (h.1 _ hx)
    · exact ih h.2 hx hy

theorem textOkAttrs_iff (attrs : List Attr) (v : String) (md : TextMode) (hv : modeOf v = some md) :
    TextOkAttrs attrs v ↔ (textAttr attrs []).errs = [] ∧ (textAttr attrs []).mode = some md := by
  obtain ⟨h1, h2, h3⟩ := textAttr_spec attrs
  constructor
  · intro h
    have he : (textAttr attrs []).errs = [] := by
      rw [h1]
      refine ⟨h.lists, ?_, h.once⟩
      intro i hi
      rcases h.understood i hi with rfl | ⟨w, hw, rfl⟩
      · exact .inr ⟨v, md, rfl, hv⟩
      · obtain ⟨w', hw'⟩ := (wsOf_isSome w).mpr hw
        exact .inl ⟨w, w', rfl, hw'⟩
    exact ⟨he, (h3 he md).mpr ⟨v, h.given, hv⟩⟩
  · rintro ⟨he, hm⟩
    obtain ⟨v', hv', hm'⟩ := (h3 he md).mp hm
    obtain ⟨ha, hu, ho⟩ := h1.mp he
    have hvv : v' = v := by
      rw [modeOf_some] at hv hm'
      rcases hv with ⟨rfl, rfl⟩ | ⟨rfl, rfl⟩ | ⟨rfl, rfl⟩ <;> simpa using hm'
    subst hvv
    refine ⟨ha, ?_, hv', ho, (modeOf_isSome v').mp ⟨_, hv⟩⟩
    intro i hi
    rcases hu i hi with ⟨w, w', rfl, hw⟩ | ⟨v2, md2, rfl, -⟩
    · exact .inr ⟨w, (wsOf_isSome w).mp ⟨w', hw⟩, rfl⟩
    · have := atMostOne_unique ho hi hv'
      simp at this
      rw [this]; exact .inl rfl

/-! ### Restrictions -/

/-- An item understood on variants of restrictions. -/
def UndR (i : NMeta) : Prop := i = word "unknown" ∨ ∃ t, i = kv "rename" t

structure RestrictionRun (s : RestrictionState) (l : List NMeta) (s' : RestrictionState) : Prop where
  errs_iff : s'.errs = [] ↔ s.errs = [] ∧ ∀ i ∈ l, UndR i
  unknown : s'.unknown = (s.unknown || decide (word "unknown" ∈ l))
  keep : (∀ v, kv "rename" v ∉ l) → s'.text = s.text
  text : (¬ ∀ v, kv "rename" v ∉ l) → s'.text = some (newLoc "" l)

theorem restrictionItem_cases (s : RestrictionState) (i : NMeta) :
    (i = word "unknown" ∧ restrictionItem s i = { s with unknown := true }) ∨
    (∃ v, i = kv "rename" v ∧ restrictionItem s i = { s with text := some v }) ∨
    (¬ UndR i ∧ ∃ e, restrictionItem s i = { s with errs := s.errs ++ [e] }) := by
  unfold restrictionItem
  split
  · exact .inl ⟨rfl, rfl⟩
  · exact .inr (.inl ⟨_, rfl, rfl⟩)
  · exact .inr (.inr ⟨by simp [UndR, kv, word], _, rfl⟩)
  · rename_i h1 h2 h3
    refine .inr (.inr ⟨?_, _, rfl⟩)
    rintro (h | ⟨t, h⟩)
    · exact h1 h
    · exact h2 _ h

theorem newLoc_any {l : List NMeta} (h : ¬ ∀ v, kv "rename" v ∉ l) (a b : String) : newLoc a l = newLoc b l := by
  induction l generalizing a b with
  | nil => simp at h
  | cons i l ih =>
    by_cases hi : ∃ v, i = kv "rename" v
    · obtain ⟨v, rfl⟩ := hi
      rw [newLoc_rename, newLoc_rename]
    · rw [newLoc_other _ _ _ (fun v e => hi ⟨v, e⟩), newLoc_other _ _ _ (fun v e => hi ⟨v, e⟩)]
      apply ih
      intro hn
      apply h
      intro v hv
      rcases List.mem_cons.mp hv with hv | hv
      · exact hi ⟨v, hv.symm⟩
      · exact hn v hv

theorem newLoc_none {l : List NMeta} (h : ∀ v, kv "rename" v ∉ l) (a : String) : newLoc a l = a := by
  induction l with
  | nil => rfl
  | cons i l ih =>
    rw [newLoc_other _ _ _ (fun v e => h v (by rw [e]; simp))]
    exact ih fun v hv => h v (by simp [hv])

theorem restrictionFold_spec (l : List NMeta) (s : RestrictionState) : RestrictionRun s l (l.foldl restrictionItem s) := by
  induction l generalizing s with
  | nil => exact { errs_iff := by simp, unknown := by simp, keep := by simp, text := by simp }
  | cons i l ih =>
    rw [List.foldl_cons]
    rcases restrictionItem_cases s i with ⟨rfl, h⟩ | ⟨v, rfl, h⟩ | ⟨hu, e, h⟩
    · rw [h]
      have ih := ih { s with unknown := true }
      refine { errs_iff := ?_, unknown := ?_, keep := ?_, text := ?_ }
      · rw [ih.errs_iff, forall_mem_cons_iff]
        have : UndR (word "unknown") := .inl rfl
        simp [this]
      · rw [ih.unknown]; simp
      · intro hn
        exact ih.keep fun v hv => hn v (by simp [hv])
      · intro hn
        rw [newLoc_other _ (word "unknown") _ (by simp [kv, word])]
        refine ih.text fun hh => hn fun v hv => ?_
        rcases List.mem_cons.mp hv with hv | hv
        · simp [kv, word] at hv
        · exact hh v hv
    · rw [h]
      have ih := ih { s with text := some v }
      refine { errs_iff := ?_, unknown := ?_, keep := ?_, text := ?_ }
      · rw [ih.errs_iff, forall_mem_cons_iff]
        have : UndR (kv "rename" v) := .inr ⟨v, rfl⟩
        simp [this]
      · rw [ih.unknown]
        have : (word "unknown" ∈ kv "rename" v :: l ↔ word "unknown" ∈ l) := by simp [kv, word]
        simp only [this]
      · intro hn
        exact absurd (List.mem_cons_self) (hn v)
      · intro _
        rw [newLoc_rename]
        by_cases hn : ∀ w, kv "rename" w ∉ l
        · rw [ih.keep hn, newLoc_none hn]
        · rw [ih.text hn, newLoc_any hn "" v]
    · rw [h]
      have ih := ih { s with errs := s.errs ++ [e] }
      refine { errs_iff := ?_, unknown := ?_, keep := ?_, text := ?_ }
      · rw [ih.errs_iff, forall_mem_cons_iff]
        simp [hu]
      · rw [ih.unknown]
        have : (word "unknown" ∈ i :: l ↔ word "unknown" ∈ l) := by
          rw [List.mem_cons]
          exact ⟨fun hh => hh.elim (fun e => absurd (.inl e.symm) hu) id, .inr⟩
        simp [this]
      · intro hn
        exact ih.keep fun v hv => hn v (by simp [hv])
      · intro hn
        rw [newLoc_other _ i _ (fun v hv => hu (.inr ⟨v, hv⟩))]
        refine ih.text fun hh => hn fun v hv => ?_
        rcases List.mem_cons.mp hv with hv | hv
        · exact hu (.inr ⟨v, hv.symm⟩)
        · exact hh v hv

theorem restrictionVariants_spec (l : List DVariant) (seen : Bool) (errs : List MErr) :
    ((restrictionVariants l seen errs).2 = [] ↔ errs = [] ∧ (∀ v ∈ l, RestrictionOk v) ∧ (seen = true → ∀ v ∈ l, ¬ Unknown v) ∧
      l.Pairwise fun v w => ¬ (Unknown v ∧ Unknown w)) ∧
    ((restrictionVariants l seen errs).2 = [] → Rowwise RestrictionIs l (restrictionVariants l seen errs).1) := by
  induction l generalizing seen errs with
  | nil => exact ⟨by simp [restrictionVariants], fun _ => .nil⟩
  | cons v l ih =>
    have hg := getMetaItems_spec v.attrs errs
    simp only [restrictionVariants]
    generalize getMetaItems v.attrs errs = g at hg
    obtain ⟨items, errs1⟩ := g
    simp only at hg ⊢
    obtain ⟨rfl, herr⟩ := hg
    have run := restrictionFold_spec (attrItems v.attrs) { text := none, unknown := false, errs := errs1 }
    generalize List.foldl restrictionItem { text := none, unknown := false, errs := errs1 } (attrItems v.attrs) = s at run
    have hse : s.errs = [] ↔ errs = [] ∧ AttrsOk v.attrs ∧ ∀ i ∈ attrItems v.attrs, UndR i := by
      rw [run.errs_iff, herr, and_assoc]
    have hno : s.errs = [] → ((∀ t, kv "rename" t ∉ attrItems v.attrs) ↔ NoneOf "rename" (attrItems v.attrs)) := by
      intro he
      constructor
      · intro h x hx
        rcases (hse.mp he).2.2 _ hx with h' | ⟨t, ht⟩
        · simp [word] at h'
        · simp [kv] at ht
          subst ht
          exact h t hx
      · intro h t ht; exact h _ ht
    have htext : s.text.isSome = true ↔ ¬ ∀ t, kv "rename" t ∉ attrItems v.attrs := by
      by_cases h : ∀ t, kv "rename" t ∉ attrItems v.attrs
      · rw [run.keep h]; simp [h]
      · rw [run.text h]; simp only [Option.isSome_some, true_iff]; exact h
    have hunk : s.unknown = true ↔ Unknown v := by rw [run.unknown]; simp [Unknown]
    by_cases hu : s.unknown = true
    · rw [if_pos hu]
      have huv := hunk.mp hu
      obtain ⟨h1, h2⟩ := ih true (s.errs ++ (if s.text.isSome = true then [.unknownRename] else []) ++
        (if v.fields = .unnamed 1 then [] else [.unknownFields]) ++ (if seen = true then [.duplicateUnknown] else []))
      have herrs : (s.errs ++ (if s.text.isSome = true then [MErr.unknownRename] else []) ++
          (if v.fields = .unnamed 1 then [] else [.unknownFields]) ++ (if seen = true then [.duplicateUnknown] else []) = []) ↔
          errs = [] ∧ RestrictionOk v ∧ seen = false := by
        have hA : (if s.text.isSome = true then [MErr.unknownRename] else []) = [] ↔ ¬ s.text.isSome = true := by split <;> simp_all
        have hB : (if v.fields = .unnamed 1 then [] else [MErr.unknownFields]) = [] ↔ v.fields = .unnamed 1 := by split <;> simp_all
        have hC : (if seen = true then [MErr.duplicateUnknown] else []) = [] ↔ seen = false := by cases seen <;> simp
        rw [List.append_eq_nil_iff, List.append_eq_nil_iff, List.append_eq_nil_iff, hA, hB, hC, htext, Classical.not_not]
        constructor
        · rintro ⟨⟨⟨a, b⟩, c⟩, d⟩
          obtain ⟨e1, e2, e3⟩ := hse.mp a
          exact ⟨e1, ⟨e2, e3, fun _ => ⟨(hno a).mp b, c⟩, fun h => absurd huv h⟩, d⟩
        · rintro ⟨a, b, c⟩
          have he := hse.mpr ⟨a, b.lists, b.understood⟩
          exact ⟨⟨⟨he, (hno he).mpr (b.unknown huv).1⟩, (b.unknown huv).2⟩, c⟩
      refine ⟨?_, ?_⟩
      · rw [h1, herrs, forall_mem_cons_iff, List.pairwise_cons]
        simp only [true_implies]
        constructor
        · rintro ⟨⟨a, b, c⟩, d, e, f⟩
          refine ⟨a, ⟨b, d⟩, ?_, ?_, f⟩
          · rw [c]; simp
          · intro w hw hh; exact e w hw hh.2
        · rintro ⟨a, ⟨b, d⟩, e, f, g⟩
          refine ⟨⟨a, b, ?_⟩, d, ?_, g⟩
          · cases hs : seen with
            | false => rfl
            | true => exact absurd huv (e hs v (by simp))
          · intro w hw hh; exact f w hw ⟨huv, hh⟩
      · intro he
        exact .cons (.inl ⟨huv, rfl⟩) (h2 he)
    · rw [if_neg hu]
      have huv : ¬ Unknown v := fun h => hu (hunk.mpr h)
      obtain ⟨h1, h2⟩ := ih seen (s.errs ++ (if v.fields = .unit then [] else [.knownFields]))
      have herrs : (s.errs ++ (if v.fields = .unit then [] else [MErr.knownFields]) = []) ↔ errs = [] ∧ RestrictionOk v := by
        have hB : (if v.fields = .unit then [] else [MErr.knownFields]) = [] ↔ v.fields = .unit := by split <;> simp_all
        rw [List.append_eq_nil_iff, hB]
        constructor
        · rintro ⟨a, b⟩
          obtain ⟨e1, e2, e3⟩ := hse.mp a
          exact ⟨e1, e2, e3, fun h => absurd h huv, fun _ => b⟩
        · rintro ⟨a, b⟩
          exact ⟨hse.mpr ⟨a, b.lists, b.understood⟩, b.known huv⟩
      refine ⟨?_, ?_⟩
      · rw [h1, herrs, forall_mem_cons_iff, forall_mem_cons_iff, List.pairwise_cons]
        constructor
        · rintro ⟨⟨a, b⟩, d, e, f⟩
          exact ⟨a, ⟨b, d⟩, fun hs => ⟨huv, e hs⟩, fun w _ hh => huv hh.1, f⟩
        · rintro ⟨a, ⟨b, d⟩, e, f, g⟩
          exact ⟨⟨a, b⟩, d, fun hs => (e hs).2, g⟩
      · intro he
        have he0 := herrs.mp (h1.mp he).1
        have hse' := hse.mpr ⟨he0.1, he0.2.lists, he0.2.understood⟩
        refine .cons (.inr ⟨_, huv, rfl, ?_⟩) (h2 he)
        have hl := newLoc_spec v.ident (attrItems v.attrs) (by
          intro x hx
          rcases he0.2.understood _ hx with h' | ⟨t, ht⟩
          · simp [word] at h'
          · simp [kv] at ht; exact ⟨t, ht⟩)
        by_cases hn : ∀ t, kv "rename" t ∉ attrItems v.attrs
        · rw [run.keep hn]
          rw [newLoc_none hn] at hl
          exact hl
        · rw [run.text hn]
          rw [newLoc_any hn _ ""] at hl
          exact hl

/-! ### Unions -/

theorem unionVariants_spec (l : List DVariant) (i : Nat) (errs : List MErr) :
    ((unionVariants l i errs).2 = [] ↔ errs = [] ∧ ∀ v ∈ l, AttrsOk v.attrs ∧ attrItems v.attrs = [] ∧ v.fields = .unnamed 1) ∧
    ((unionVariants l i errs).2 = [] → (unionVariants l i errs).1 = (List.range l.length).map (i + ·)) := by
  induction l generalizing i errs with
  | nil => exact ⟨by simp [unionVariants], fun _ => rfl⟩
  | cons v l ih =>
    have hg := getMetaItems_spec v.attrs errs
    simp only [unionVariants]
    generalize getMetaItems v.attrs errs = g at hg
    obtain ⟨items, errs1⟩ := g
    simp only at hg ⊢
    obtain ⟨rfl, herr⟩ := hg
    have hse : errs1 ++ (attrItems v.attrs).map (fun _ => MErr.notUnderstood) = [] ↔ errs = [] ∧ AttrsOk v.attrs ∧ attrItems v.attrs = [] := by
      rw [List.append_eq_nil_iff, List.map_eq_nil_iff, herr, and_assoc]
    by_cases hv : v.fields = .unnamed 1
    · rw [if_pos hv]
      obtain ⟨h1, h2⟩ := ih (i + 1) (errs1 ++ (attrItems v.attrs).map fun _ => MErr.notUnderstood)
      refine ⟨?_, ?_⟩
      · rw [h1, hse, forall_mem_cons_iff]
        simp only [hv, and_true, and_assoc]
      · intro he
        simp only
        rw [h2 he, List.length_cons, List.range_succ_eq_map, List.map_cons, List.map_map]
        congr 1
        apply List.map_congr_left
        intro a _
        simp only [Function.comp_apply]; omega
    · rw [if_neg hv]
      obtain ⟨h1, h2⟩ := ih (i + 1) (errs1 ++ (attrItems v.attrs).map (fun _ => MErr.notUnderstood) ++ [.variantFields])
      have hne : ¬ (unionVariants l (i + 1) (errs1 ++ (attrItems v.attrs).map (fun _ => MErr.notUnderstood) ++ [.variantFields])).2 = [] := by
        intro he
        have := (h1.mp he).1
        simp at this
      refine ⟨⟨fun he => absurd he hne, ?_⟩, fun he => absurd he hne⟩
      rintro ⟨-, h⟩
      exact absurd (h v (by simp)).2.2 hv

theorem describeText_spec (d : Decl) :
    ((describeText d).2 = [] ↔ TextDeclOk d) ∧ ((describeText d).2 = [] → ∃ t, (describeText d).1 = some t ∧ TextDescribes d t) := by
  obtain ⟨h1, h2, h3⟩ := textAttr_spec d.attrs
  have hS := textOkAttrs_iff d.attrs "std" .std rfl
  have hR := textOkAttrs_iff d.attrs "restriction" .restriction rfl
  have hU := textOkAttrs_iff d.attrs "union" .union rfl
  have hgiven : ∀ v md, modeOf v = some md → (textAttr d.attrs []).errs = [] → (textAttr d.attrs []).mode = some md →
      kv "mode" v ∈ attrItems d.attrs := fun v md hv he hm => ((textOkAttrs_iff d.attrs v md hv).mpr ⟨he, hm⟩).given
  unfold describeText TextDeclOk
  generalize textAttr d.attrs [] = s at *
  simp only
  cases hm : s.mode with
  | none =>
    simp only
    refine ⟨?_, by simp⟩
    simp only [List.append_eq_nil_iff, List.cons_ne_nil, and_false, false_iff]
    rintro (h | ⟨h, -⟩ | ⟨h, -⟩)
    · have := (hS.mp h).2; rw [hm] at this; simp at this
    · have := (hR.mp h).2; rw [hm] at this; simp at this
    · have := (hU.mp h).2; rw [hm] at this; simp at this
  | some md =>
    have hmd : ∀ md', md ≠ md' → ¬ (s.errs = [] ∧ s.mode = some md') := by
      intro md' hne h
      rw [hm] at h
      exact hne (by simpa using h.2)
    cases md with
    | std =>
      simp only
      refine ⟨⟨fun he => .inl (hS.mpr ⟨he, hm⟩), ?_⟩, fun he => ⟨_, rfl, hgiven "std" _ rfl he hm, h2 he⟩⟩
      rintro (h | ⟨h, -⟩ | ⟨h, -⟩)
      · exact (hS.mp h).1
      · exact absurd (hR.mp h) (hmd _ (by simp))
      · exact absurd (hU.mp h) (hmd _ (by simp))
    | restriction =>
      simp only
      cases hd : d.data with
      | enm vs =>
        simp only [if_true]
        obtain ⟨g1, g2⟩ := restrictionVariants_spec vs false s.errs
        refine ⟨?_, ?_⟩
        · rw [g1]
          constructor
          · rintro ⟨a, b, -, c⟩
            exact .inr (.inl ⟨hR.mpr ⟨a, hm⟩, vs, rfl, b, c⟩)
          · rintro (h | ⟨h, vs', hvs, b, c⟩ | ⟨h, -⟩)
            · exact absurd (hS.mp h) (hmd _ (by simp))
            · injection hvs with hvs
              subst hvs
              exact ⟨(hR.mp h).1, b, by simp, c⟩
            · exact absurd (hU.mp h) (hmd _ (by simp))
        · intro he
          have he0 := (g1.mp he).1
          exact ⟨_, rfl, hgiven "restriction" _ rfl he0 hm, h2 he0, vs, hd, g2 he⟩
      | _ =>
        simp only
        refine ⟨?_, by simp⟩
        simp only [List.append_eq_nil_iff, List.cons_ne_nil, and_false, false_iff]
        rintro (h | ⟨h, vs, hvs, -⟩ | ⟨h, vs, hvs, -⟩)
        · exact absurd (hS.mp h) (hmd _ (by simp))
        · cases hvs
        · cases hvs
    | union =>
      simp only
      cases hd : d.data with
      | enm vs =>
        simp only [reduceCtorEq, if_false]
        obtain ⟨g1, g2⟩ := unionVariants_spec vs 0 s.errs
        refine ⟨?_, ?_⟩
        · rw [g1]
          constructor
          · rintro ⟨a, b⟩
            exact .inr (.inr ⟨hU.mpr ⟨a, hm⟩, vs, rfl, b⟩)
          · rintro (h | ⟨h, -⟩ | ⟨h, vs', hvs, b⟩)
            · exact absurd (hS.mp h) (hmd _ (by simp))
            · exact absurd (hR.mp h) (hmd _ (by simp))
            · injection hvs with hvs
              subst hvs
              exact ⟨(hU.mp h).1, b⟩
        · intro he
          have he0 := (g1.mp he).1
          refine ⟨_, rfl, hgiven "union" _ rfl he0 hm, h2 he0, vs, hd, ?_⟩
          rw [g2 he]
          simp
      | _ =>
        simp only
        refine ⟨?_, by simp⟩
        simp only [List.append_eq_nil_iff, List.cons_ne_nil, and_false, false_iff]
        rintro (h | ⟨h, vs, hvs, -⟩ | ⟨h, vs, hvs, -⟩)
        · exact absurd (hS.mp h) (hmd _ (by simp))
        · cases hvs
        · cases hvs

end SX
