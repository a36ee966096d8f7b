import Verif.Proof.MacroText
import Verif.Spec.MacroErrors

/-
The errors the macros report, in order.
-/
namespace SX
open Spec

/-! ### Lists of items -/

theorem getMetaItems_eq (l : List Attr) (errs : List MErr) : getMetaItems l errs = (attrItems l, errs ++ attrErrors l) := by
  induction l generalizing errs with
  | nil => simp [getMetaItems, attrItems, attrErrors]
  | cons a l ih => cases a <;> simp [getMetaItems, attrItems, attrErrors, ih]

theorem reportIf_of {p q : Prop} [Decidable q] (h : p ↔ q) (e : MErr) : ReportIf p e (if q then [e] else []) := by
  by_cases hq : q
  · rw [if_pos hq]; exact .inl ⟨h.mpr hq, rfl⟩
  · rw [if_neg hq]; exact .inr ⟨fun hp => hq (h.mp hp), rfl⟩

theorem reportIf_unless {p q : Prop} [Decidable q] (h : p ↔ ¬ q) (e : MErr) : ReportIf p e (if q then [] else [e]) := by
  by_cases hq : q
  · rw [if_pos hq]; exact .inr ⟨fun hp => h.mp hp hq, rfl⟩
  · rw [if_neg hq]; exact .inl ⟨h.mpr hq, rfl⟩

theorem reportIf_unique {p : Prop} {e : MErr} {a b : List MErr} (h : ReportIf p e a) (h' : ReportIf p e b) : a = b := by
  rcases h with ⟨h1, rfl⟩ | ⟨h1, rfl⟩ <;> rcases h' with ⟨h2, rfl⟩ | ⟨h2, rfl⟩
  · rfl
  · exact absurd h1 h2
  · exact absurd h2 h1
  · rfl

/-- What one item adds to the errors. -/
def StepErr (P : List NMeta → NMeta → MErr → Prop) (pre : List NMeta) (i : NMeta) (errs errs' : List MErr) : Prop :=
  (errs' = errs ∧ ∀ e, ¬ P pre i e) ∨ ∃ e, P pre i e ∧ errs' = errs ++ [e]

theorem StepErr.cons {P : List NMeta → NMeta → MErr → Prop} {pre l : List NMeta} {i : NMeta} {errs errs1 errs' : List MErr}
    (h : StepErr P pre i errs errs1) (t : ∃ es, ItemErrors P (pre ++ [i]) l es ∧ errs' = errs1 ++ es) :
    ∃ es, ItemErrors P pre (i :: l) es ∧ errs' = errs ++ es := by
  obtain ⟨es, h1, rfl⟩ := t
  rcases h with ⟨rfl, h⟩ | ⟨e, h, rfl⟩
  · exact ⟨es, .fine h h1, rfl⟩
  · exact ⟨e :: es, .wrong h h1, by simp⟩

theorem fold_errors {σ : Type} {P : List NMeta → NMeta → MErr → Prop} (step : σ → NMeta → σ) (errs : σ → List MErr) (Inv : List NMeta → σ → Prop)
    (h : ∀ pre s i, Inv pre s → Inv (pre ++ [i]) (step s i) ∧ StepErr P pre i (errs s) (errs (step s i))) (l pre : List NMeta) (s : σ)
    (hs : Inv pre s) : Inv (pre ++ l) (l.foldl step s) ∧ ∃ es, ItemErrors P pre l es ∧ errs (l.foldl step s) = errs s ++ es := by
  induction l generalizing pre s with
  | nil => exact ⟨by simpa using hs, [], .nil, by simp⟩
  | cons i l ih =>
    obtain ⟨h1, h2⟩ := h pre s i hs
    obtain ⟨h3, h4⟩ := ih (pre ++ [i]) (step s i) h1
    exact ⟨by simpa using h3, h2.cons h4⟩

theorem itemErrors_unique {P : List NMeta → NMeta → MErr → Prop} (hP : ∀ pre i e e', P pre i e → P pre i e' → e = e') {pre l : List NMeta}
    {a b : List MErr} (h : ItemErrors P pre l a) (h' : ItemErrors P pre l b) : a = b := by
  induction h generalizing b with
  | nil => cases h'; rfl
  | fine h _ ih =>
    cases h' with
    | fine _ t => exact ih t
    | wrong hw _ => exact absurd hw (h _)
  | wrong h _ ih =>
    cases h' with
    | fine hf _ => exact absurd h (hf _)
    | wrong hw t => rw [hP _ _ _ _ h hw, ih t]

theorem split_snoc {α : Type} (Q : List α → α → Prop) (pre : List α) (x : α) :
    (∃ a i b, pre ++ [x] = a ++ i :: b ∧ Q a i) ↔ (∃ a i b, pre = a ++ i :: b ∧ Q a i) ∨ Q pre x := by
  constructor
  · rintro ⟨a, i, b, h, hq⟩
    rcases List.eq_nil_or_concat b with rfl | ⟨b', y, rfl⟩
    · have := List.append_inj' h rfl
      obtain ⟨rfl, h2⟩ := this
      simp at h2
      subst h2
      exact .inr hq
    · rw [List.concat_eq_append, ← List.cons_append, ← List.append_assoc] at h
      obtain ⟨h1, -⟩ := List.append_inj' h rfl
      exact .inl ⟨a, i, b', h1, hq⟩
  · rintro (⟨a, i, b, rfl, hq⟩ | hq)
    · exact ⟨a, i, b ++ [x], by simp, hq⟩
    · exact ⟨pre, x, [], rfl, hq⟩

theorem mapped_snoc (l : List NMeta) (i : NMeta) (p u : String) : Mapped (l ++ [i]) p u ↔ Mapped l p u ∨ Declares i p u := by
  unfold Mapped
  constructor
  · rintro ⟨j, hj, hd⟩
    rcases List.mem_append.mp hj with hj | hj
    · exact .inl ⟨j, hj, hd⟩
    · simp at hj; subst hj; exact .inr hd
  · rintro (⟨j, hj, hd⟩ | hd)
    · exact ⟨j, by simp [hj], hd⟩
    · exact ⟨i, by simp, hd⟩

theorem firstMapped_snoc (l : List NMeta) (i : NMeta) (p u : String) :
    FirstMapped (l ++ [i]) p u ↔ FirstMapped l p u ∨ (Declares i p u ∧ ∀ u', ¬ Mapped l p u') :=
  split_snoc (fun a i => Declares i p u ∧ ∀ u', ¬ Mapped a p u') l i

/-! ### Types -/

/-- The map holds the first mappings. -/
structure MapInv (pre : List NMeta) (m : SMap String) : Prop where
  some : ∀ p u, m.get p = some u ↔ FirstMapped pre p u
  none : ∀ p, m.get p = none ↔ ∀ u, ¬ Mapped pre p u

theorem MapInv.nil : MapInv [] [] where
  some p u := by
    rw [SMap.get_nil]
    constructor
    · exact nofun
    · rintro ⟨a, i, b, h, -⟩; simp at h
  none p := by simp [SMap.get_nil, Mapped]

theorem MapInv.keep {pre : List NMeta} {m : SMap String} (h : MapInv pre m) {i : NMeta} (hi : ∀ p u, ¬ Declares i p u) : MapInv (pre ++ [i]) m where
  some p u := by rw [firstMapped_snoc, h.some]; simp [hi]
  none p := by simp only [mapped_snoc, h.none]; simp [hi]

theorem MapInv.add {pre : List NMeta} {m : SMap String} (h : MapInv pre m) {i : NMeta} {p u u0 : String} (hd : Declares i p u)
    (hu : rustTrim u0 = u) (errs : List MErr) :
    MapInv (pre ++ [i]) (addInternal m p u0 errs).1 ∧
    (((addInternal m p u0 errs).2 = errs ∧ ∀ w, ¬ FirstMapped pre p w) ∨
      ∃ w, FirstMapped pre p w ∧ (addInternal m p u0 errs).2 = errs ++ [.reassign p w u]) := by
  unfold addInternal
  cases hg : m.get p with
  | none =>
    have hn := (h.none p).mp hg
    refine ⟨⟨fun q w => ?_, fun q => ?_⟩, .inl ⟨rfl, fun w hw => ?_⟩⟩
    · simp only
      rw [SMap.get_insertNew _ _ _ _ hg, firstMapped_snoc]
      by_cases hq : p = q
      · subst hq
        rw [if_pos rfl, hu]
        constructor
        · intro he
          simp at he
          subst he
          exact .inr ⟨hd, hn⟩
        · rintro (hf | ⟨hd', -⟩)
          · have := (h.some p w).mpr hf
            rw [hg] at this; simp at this
          · rw [(declares_unique hd hd').2]
      · rw [if_neg hq, h.some]
        exact ⟨.inl, fun hh => hh.elim id fun hh => absurd (declares_unique hd hh.1).1 hq⟩
    · simp only
      rw [SMap.get_insertNew _ _ _ _ hg]
      simp only [mapped_snoc]
      by_cases hq : p = q
      · subst hq
        rw [if_pos rfl]
        simp only [reduceCtorEq, false_iff]
        exact fun hh => hh u (.inr hd)
      · rw [if_neg hq, h.none]
        exact ⟨fun hh w hw => hw.elim (hh w) fun hw => hq (declares_unique hd hw).1, fun hh w hw => hh w (.inl hw)⟩
    · have := (h.some p w).mpr hw
      rw [hg] at this; simp at this
  | some old =>
    have hf := (h.some p old).mp hg
    have hnn : ¬ ∀ w, ¬ Mapped pre p w := by
      intro hh
      rw [(h.none p).mpr hh] at hg; simp at hg
    refine ⟨⟨fun q w => ?_, fun q => ?_⟩, .inr ⟨old, hf, by rw [hu]⟩⟩
    · rw [firstMapped_snoc, h.some]
      refine ⟨.inl, fun hh => hh.elim id fun hh => ?_⟩
      rw [(declares_unique hd hh.1).1] at hnn
      exact absurd hh.2 hnn
    · simp only [mapped_snoc]
      rw [h.none]
      refine ⟨fun hh w hw => hw.elim (hh w) fun hw => ?_, fun hh w hw => hh w (.inl hw)⟩
      rw [(declares_unique hd hw).1] at hnn
      exact hnn hh

theorem typeItemError_fine {pre : List NMeta} {i : NMeta} (hk : Known [] ["rename", "prefix", "namespace", "default_namespace"] i)
    (hs : ∀ k, k ∈ ["rename", "namespace", "default_namespace"] → i ≠ .nameValue (some k) .other)
    (hd : ∀ p u w, Declares i p u → ¬ FirstMapped pre p w) (e : MErr) : ¬ TypeItemError pre i e := by
  intro h
  cases h with
  | notUnderstood h => exact h hk
  | notString h => exact hs _ h rfl
  | reassign h hi => exact hd _ _ _ hi h

theorem typeItemError_unique (pre : List NMeta) (i : NMeta) (e e' : MErr) (h : TypeItemError pre i e) (h' : TypeItemError pre i e') : e = e' := by
  have hdk : ∀ {i p u}, Declares i p u → Known [] ["rename", "prefix", "namespace", "default_namespace"] i := by
    intro i p u h
    obtain ⟨w, rfl | rfl⟩ := declares_key h
    · exact .inr ⟨"namespace", by simp, _, rfl⟩
    · exact .inr ⟨"default_namespace", by simp, _, rfl⟩
  have hsk : ∀ {k}, k ∈ ["rename", "namespace", "default_namespace"] →
      Known [] ["rename", "prefix", "namespace", "default_namespace"] (.nameValue (some k) .other) := by
    intro k hk
    refine .inr ⟨k, ?_, _, rfl⟩
    simp at hk ⊢
    rcases hk with h | h | h <;> simp [h]
  have hds : ∀ {k p u}, ¬ Declares (.nameValue (some k) .other) p u := by
    intro k p u h
    obtain ⟨w, hw | hw⟩ := declares_key h <;> simp [kv] at hw
  cases h with
  | notUnderstood h =>
    cases h' with
    | notUnderstood => rfl
    | notString hk => exact absurd (hsk hk) h
    | reassign _ hi => exact absurd (hdk hi) h
  | notString hk =>
    cases h' with
    | notUnderstood h => exact absurd (hsk hk) h
    | notString => rfl
    | reassign _ hi => exact absurd hi hds
  | reassign hf hi =>
    cases h' with
    | notUnderstood h => exact absurd (hdk hi) h
    | notString hk => exact absurd hi hds
    | reassign hf' hi' =>
      obtain ⟨rfl, rfl⟩ := declares_unique hi hi'
      have huniq : ∀ {l : List NMeta} {p u u' : String}, FirstMapped l p u → FirstMapped l p u' → u = u' := by
        rintro l p u u' ⟨a, i, b, rfl, h1, h2⟩ ⟨a', i', b', he, h3, h4⟩
        rcases List.append_eq_append_iff.mp he with ⟨x, rfl, hx⟩ | ⟨x, rfl, hx⟩
        · cases x with
          | nil => simp at hx; obtain ⟨rfl, -⟩ := hx; exact (declares_unique h1 h3).2
          | cons y x =>
            simp at hx; obtain ⟨rfl, -⟩ := hx
            exact absurd ⟨i, by simp, h1⟩ (h4 u)
        · cases x with
          | nil => simp at hx; obtain ⟨rfl, -⟩ := hx; exact (declares_unique h1 h3).2
          | cons y x =>
            simp at hx; obtain ⟨rfl, -⟩ := hx
            exact absurd ⟨i', by simp, h3⟩ (h2 u')
      rw [huniq hf hf']

theorem not_declares_rename (v : Lit) (p u : String) : ¬ Declares (.nameValue (some "rename") v) p u := by
  intro h
  obtain ⟨w, hw | hw⟩ := declares_key h <;> simp [kv] at hw

theorem not_declares_prefix (v : Lit) (p u : String) : ¬ Declares (.nameValue (some "prefix") v) p u := by
  intro h
  obtain ⟨w, hw | hw⟩ := declares_key h <;> simp [kv] at hw

theorem not_declares_other (k : Option String) (p u : String) : ¬ Declares (.nameValue k .other) p u := by
  intro h
  obtain ⟨w, hw | hw⟩ := declares_key h <;> simp [kv] at hw

theorem StepErr.declared {pre : List NMeta} {i : NMeta} {p u : String} {errs errs' : List MErr}
    (hk : Known [] ["rename", "prefix", "namespace", "default_namespace"] i) (hs : ∀ k, i ≠ .nameValue k .other) (hd : Declares i p u)
    (h : (errs' = errs ∧ ∀ w, ¬ FirstMapped pre p w) ∨ ∃ w, FirstMapped pre p w ∧ errs' = errs ++ [.reassign p w u]) :
    StepErr TypeItemError pre i errs errs' := by
  rcases h with ⟨rfl, h⟩ | ⟨w, h, rfl⟩
  · refine .inl ⟨rfl, typeItemError_fine hk (fun k _ => hs _) ?_⟩
    intro q x w hq
    rw [(declares_unique hq hd).1]
    exact h w
  · exact .inr ⟨_, .reassign h hd, rfl⟩

theorem typeItem_errors {pre : List NMeta} {s s' : TypeState} {i : NMeta} (hm : MapInv pre s.namespaces) (h : typeItem s i = .ok s') :
    MapInv (pre ++ [i]) s'.namespaces ∧ StepErr TypeItemError pre i s.errs s'.errs ∧ s'.pfx = (lastVal "prefix" [i]).or s.pfx ∧
      s'.name.pfx = s.name.pfx := by
  have hpfx : s'.pfx = (lastVal "prefix" [i]).or s.pfx ∧ s'.name.pfx = s.name.pfx := by
    rcases typeItem_spec s i with ⟨_, h'⟩ | ⟨_, s1, h', st⟩
    · rw [h'] at h; simp at h
    · rw [h'] at h
      injection h with h
      subst h
      exact ⟨st.pfx, by rw [st.name]⟩
  suffices H : MapInv (pre ++ [i]) s'.namespaces ∧ StepErr TypeItemError pre i s.errs s'.errs from ⟨H.1, H.2, hpfx⟩
  unfold typeItem at h
  split at h
  · injection h with h; subst h
    rename_i v
    refine ⟨hm.keep (not_declares_rename _), .inl ⟨rfl, typeItemError_fine (.inr ⟨"rename", by simp, _, rfl⟩) (by simp) ?_⟩⟩
    exact fun p u w hd => absurd hd (not_declares_rename _ _ _)
  · injection h with h; subst h
    exact ⟨hm.keep (not_declares_other _), .inr ⟨_, .notString (by simp), rfl⟩⟩
  · injection h with h; subst h
    refine ⟨hm.keep (not_declares_prefix _), .inl ⟨rfl, typeItemError_fine (.inr ⟨"prefix", by simp, _, rfl⟩) (by simp) ?_⟩⟩
    exact fun p u w hd => absurd hd (not_declares_prefix _ _ _)
  · rename_i v
    have hk : Known [] ["rename", "prefix", "namespace", "default_namespace"] (.nameValue (some "namespace") (.str v)) :=
      .inr ⟨"namespace", by simp, _, rfl⟩
    unfold addNamespace at h
    cases hs : splitColon v with
    | none =>
      rw [hs] at h
      injection h with h; subst h
      have hn := (splitColon_none v).mp hs
      have hd : Declares (.nameValue (some "namespace") (.str v)) "" (rustTrim v) := .plain hn ((isTrim_iff _ _).mpr rfl)
      obtain ⟨h1, h2⟩ := hm.add hd rfl s.errs
      exact ⟨h1, .declared hk (by simp) hd h2⟩
    | some x =>
      obtain ⟨a, b⟩ := x
      have hf := (splitColon_some v a b).mp hs
      rw [hs] at h
      simp only at h
      by_cases hx : (a.toList.take 3 == "xml".toList) = true
      · rw [if_pos hx] at h
        have hnd : ∀ p u, ¬ Declares (.nameValue (some "namespace") (.str v)) p u := by
          intro p u hd
          rw [declares_iff] at hd
          simp only [itemDecl, if_true, hs, hx] at hd
          simp at hd
        split at h
        · rename_i heq
          split at heq
          · injection heq with heq; injection heq with h1 h2
            subst h1 h2
            injection h with h; subst h
            exact ⟨hm.keep hnd, .inl ⟨rfl, typeItemError_fine hk (by simp) fun p u w hd => absurd hd (hnd p u)⟩⟩
          · simp at heq
        · simp at h
      · rw [if_neg hx] at h
        injection h with h; subst h
        have hd : Declares (.nameValue (some "namespace") (.str v)) (rustTrim a) (rustTrim b) :=
          .mapping hf (fun hh => hx ((xmlish_iff a).mpr hh)) ((isTrim_iff _ _).mpr rfl) ((isTrim_iff _ _).mpr rfl)
        obtain ⟨h1, h2⟩ := hm.add hd rfl s.errs
        exact ⟨h1, .declared hk (by simp) hd h2⟩
  · injection h with h; subst h
    exact ⟨hm.keep (not_declares_other _), .inr ⟨_, .notString (by simp), rfl⟩⟩
  · injection h with h; subst h
    rename_i v
    have hd : Declares (.nameValue (some "default_namespace") (.str v)) "" (rustTrim v) := .default ((isTrim_iff _ _).mpr rfl)
    obtain ⟨h1, h2⟩ := hm.add hd (rustTrim_idem v) s.errs
    exact ⟨h1, .declared (.inr ⟨"default_namespace", by simp, _, rfl⟩) (by simp) hd h2⟩
  · injection h with h; subst h
    exact ⟨hm.keep (not_declares_other _), .inr ⟨_, .notString (by simp), rfl⟩⟩
  · injection h with h; subst h
    rename_i h1 h2 h3 h4 h5 h6 h7
    have hu : ¬ Known [] ["rename", "prefix", "namespace", "default_namespace"] i := by
      rintro (⟨w, hw, -⟩ | ⟨k, hk, l, rfl⟩)
      · simp at hw
      · simp only [List.mem_cons, List.not_mem_nil, or_false] at hk
        rcases hk with rfl | rfl | rfl | rfl
        · cases l with
          | str v => exact h1 _ rfl
          | other => exact h2 rfl
        · exact h3 _ rfl
        · cases l with
          | str v => exact h4 _ rfl
          | other => exact h5 rfl
        · cases l with
          | str v => exact h6 _ rfl
          | other => exact h7 rfl
    refine ⟨hm.keep ?_, .inr ⟨_, .notUnderstood hu, rfl⟩⟩
    intro p u hd
    obtain ⟨w, rfl | rfl⟩ := declares_key hd
    · exact hu (.inr ⟨"namespace", by simp, _, rfl⟩)
    · exact hu (.inr ⟨"default_namespace", by simp, _, rfl⟩)

theorem typeLoop_errors (l : List NMeta) {pre : List NMeta} {s s' : TypeState} (hm : MapInv pre s.namespaces) (h : typeLoop l s = .ok s') :
    MapInv (pre ++ l) s'.namespaces ∧ (∃ es, ItemErrors TypeItemError pre l es ∧ s'.errs = s.errs ++ es) ∧
      s'.pfx = (lastVal "prefix" l).or s.pfx ∧ s'.name.pfx = s.name.pfx := by
  induction l generalizing pre s with
  | nil =>
    simp only [typeLoop] at h
    injection h with h; subst h
    exact ⟨by simpa using hm, ⟨[], .nil, by simp⟩, rfl, rfl⟩
  | cons i l ih =>
    simp only [typeLoop] at h
    split at h
    · rename_i s1 hs1
      obtain ⟨h1, h2, h3, h4⟩ := typeItem_errors hm hs1
      obtain ⟨h5, h6, h7, h8⟩ := ih h1 h
      refine ⟨by simpa using h5, h2.cons h6, ?_, by rw [h8, h4]⟩
      rw [h7, h3, lastVal_cons "prefix" i l, Option.or_assoc]
    · simp at h

/-- What a prefix given for the first time adds to the errors. -/
theorem processPrefix_errors {m : SMap String} {mapped : String → String → Prop} (hm : ∀ p, m.get p = none ↔ ∀ u, ¬ mapped p u) (s : String)
    (name : MName) (errs : List MErr) (hn : name.pfx = none) :
    (processPrefix m (.str s) name errs).1.pfx = some (rustTrim s) ∧
    ∃ es, ReportIf (Unresolved mapped (rustTrim s)) (.prefixNotFound (rustTrim s)) es ∧ (processPrefix m (.str s) name errs).2 = errs ++ es := by
  unfold processPrefix
  simp only [hn]
  cases hg : m.get (rustTrim s) with
  | some u =>
    refine ⟨rfl, [], .inr ⟨?_, rfl⟩, by simp⟩
    rintro ⟨h, -⟩
    rw [(hm _).mpr h] at hg; simp at hg
  | none =>
    have h0 := (hm _).mp hg
    simp only
    by_cases h1 : rustTrim s = "xml"
    · rw [if_pos h1]
      exact ⟨rfl, [], .inr ⟨fun h => h.2.1 h1, rfl⟩, by simp⟩
    · rw [if_neg h1]
      by_cases h2 : rustTrim s = ""
      · rw [if_neg (by simpa using h2)]
        exact ⟨rfl, [], .inr ⟨fun h => h.2.2 h2, rfl⟩, by simp⟩
      · rw [if_pos h2]
        exact ⟨rfl, _, .inl ⟨⟨h0, h1, h2⟩, rfl⟩, rfl⟩

theorem elementAttr_errors {ident : String} {attrs : List Attr} {errs errs' : List MErr} {r : MAttr}
    (h : elementAttr ident attrs errs = .ok (r, errs')) :
    (∃ es, TypeErrors attrs es ∧ errs' = errs ++ es) ∧ ∀ p, r.namespaces.get p = none ↔ ∀ u, ¬ Mapped (attrItems attrs) p u := by
  unfold elementAttr at h
  rw [getMetaItems_eq] at h
  simp only at h
  split at h
  · simp at h
  · rename_i s hs
    obtain ⟨h1, ⟨es, h2, h3⟩, h4, h5⟩ := typeLoop_errors _ MapInv.nil hs
    simp only [List.nil_append, Option.or_none] at h1 h3 h4
    have hn : s.name.pfx = none := h5
    cases hp : s.pfx with
    | none =>
      rw [hp] at h h4
      injection h with h; injection h with ha hb
      subst ha hb
      refine ⟨⟨attrErrors attrs ++ es ++ [], ⟨es, [], h2, .absent ((lastVal_none _ _).mp h4.symm), rfl⟩, by rw [h3]; simp⟩, h1.none⟩
    | some lit =>
      rw [hp] at h h4
      have hl := (lastVal_some _ _ _).mp h4.symm
      cases lit with
      | other =>
        injection h with h; injection h with ha hb
        subst ha hb
        refine ⟨⟨attrErrors attrs ++ es ++ [.notString], ⟨es, _, h2, .notString hl, rfl⟩, by rw [processPrefix_other, h3]; simp⟩, h1.none⟩
      | str v =>
        obtain ⟨-, ps, h6, h7⟩ := processPrefix_errors h1.none v s.name s.errs hn
        simp only at h
        injection h with h; injection h with ha hb
        subst ha hb
        refine ⟨⟨attrErrors attrs ++ es ++ ps, ⟨es, ps, h2, .present hl ((isTrim_iff _ _).mpr rfl) h6, rfl⟩, by rw [h7, h3]; simp⟩, h1.none⟩

theorem typeErrors_unique {attrs : List Attr} {a b : List MErr} (h : TypeErrors attrs a) (h' : TypeErrors attrs b) : a = b := by
  obtain ⟨es, ps, h1, h2, rfl⟩ := h
  obtain ⟨es', ps', h3, h4, rfl⟩ := h'
  rw [itemErrors_unique typeItemError_unique h1 h3]
  have : ps = ps' := by
    cases h2 with
    | absent h2 =>
      cases h4 with
      | absent => rfl
      | notString h4 => rw [← lastVal_some, (lastVal_none _ _).mpr h2] at h4; simp at h4
      | present h4 => rw [← lastVal_some, (lastVal_none _ _).mpr h2] at h4; simp at h4
    | notString h2 =>
      rw [← lastVal_some] at h2
      cases h4 with
      | absent h4 => rw [← lastVal_none, h2] at h4; simp at h4
      | notString h4 => rfl
      | present h4 => rw [← lastVal_some, h2] at h4; simp at h4
    | present h2 hp hr =>
      rw [← lastVal_some] at h2
      cases h4 with
      | absent h4 => rw [← lastVal_none, h2] at h4; simp at h4
      | notString h4 => rw [← lastVal_some, h2] at h4; simp at h4
      | present h4 hp' hr' =>
        rw [← lastVal_some, h2] at h4
        simp at h4
        subst h4
        rw [isTrim_iff] at hp hp'
        rw [← hp] at hr
        rw [← hp'] at hr'
        exact reportIf_unique hr hr'
  rw [this]

/-! ### Names of fields and variants -/

/-- The prefix of the name is the first one given. -/
structure PfxInv (pre : List NMeta) (pfx : Option String) : Prop where
  some : ∀ p, pfx = some p ↔ FirstPrefix pre p
  none : pfx = none ↔ ∀ s, kv "prefix" s ∉ pre

theorem PfxInv.nil : PfxInv [] Option.none where
  some p := by
    constructor
    · exact nofun
    · rintro ⟨a, s, b, h, -⟩; simp at h
  none := by simp

theorem firstPrefix_snoc (l : List NMeta) (i : NMeta) (p : String) :
    FirstPrefix (l ++ [i]) p ↔ FirstPrefix l p ∨ ∃ s, i = kv "prefix" s ∧ IsTrim s p ∧ ∀ s', kv "prefix" s' ∉ l := by
  have key : ∀ l, FirstPrefix l p ↔ ∃ a i b, l = a ++ i :: b ∧ ∃ s, i = kv "prefix" s ∧ IsTrim s p ∧ ∀ s', kv "prefix" s' ∉ a := by
    intro l
    constructor
    · rintro ⟨a, s, b, h, h1, h2⟩; exact ⟨a, _, b, h, s, rfl, h1, h2⟩
    · rintro ⟨a, _, b, h, s, rfl, h1, h2⟩; exact ⟨a, s, b, h, h1, h2⟩
  rw [key, key]
  exact split_snoc (fun a i => ∃ s, i = kv "prefix" s ∧ IsTrim s p ∧ ∀ s', kv "prefix" s' ∉ a) l i

theorem PfxInv.keep {pre : List NMeta} {pfx : Option String} (h : PfxInv pre pfx) {i : NMeta} (hi : ∀ s, i ≠ kv "prefix" s) :
    PfxInv (pre ++ [i]) pfx where
  some p := by rw [firstPrefix_snoc, h.some]; simp [hi]
  none := by
    rw [h.none]
    simp only [List.mem_append, List.mem_singleton, not_or]
    exact ⟨fun hh s => ⟨hh s, fun e => hi s e.symm⟩, fun hh s => (hh s).1⟩

theorem PfxInv.first {pre : List NMeta} {pfx : Option String} (h : PfxInv pre pfx) (hn : pfx = Option.none) (s : String) :
    PfxInv (pre ++ [kv "prefix" s]) (Option.some (rustTrim s)) where
  some p := by
    rw [firstPrefix_snoc, ← h.some, hn]
    constructor
    · intro he
      simp at he
      exact .inr ⟨s, rfl, (isTrim_iff _ _).mpr he, h.none.mp hn⟩
    · rintro (he | ⟨s', he, ht, -⟩)
      · simp at he
      · simp [kv] at he
        subst he
        rw [(isTrim_iff _ _).mp ht]
  none := by
    simp only [reduceCtorEq, false_iff]
    exact fun hh => hh s (by simp)

theorem PfxInv.again {pre : List NMeta} {pfx : Option String} (h : PfxInv pre pfx) (hn : pfx ≠ Option.none) (s : String) :
    PfxInv (pre ++ [kv "prefix" s]) pfx where
  some p := by
    rw [firstPrefix_snoc, h.some]
    refine ⟨.inl, fun hh => hh.elim id ?_⟩
    rintro ⟨s', -, -, hh⟩
    exact absurd (h.none.mpr hh) hn
  none := by
    simp only [hn, false_iff]
    exact fun hh => hh s (by simp)

theorem nameItemError_known {mapped : String → String → Prop} {words : List String} {pre : List NMeta} {i : NMeta} {e : MErr}
    (hk : Known words ["rename", "prefix"] i) (hs : ∀ k, i ≠ .nameValue k .other) (h : NameItemError mapped words pre i e) :
    ∃ s, i = kv "prefix" s ∧ ((∃ p, FirstPrefix pre p ∧ e = .duplicatePrefix p (rustTrim s)) ∨
      ((∀ s', kv "prefix" s' ∉ pre) ∧ Unresolved mapped (rustTrim s) ∧ e = .prefixNotFound (rustTrim s))) := by
  cases h with
  | notUnderstood h => exact absurd hk h
  | notString h => exact absurd rfl (hs _)
  | duplicate h hp => exact ⟨_, rfl, .inl ⟨_, h, by rw [(isTrim_iff _ _).mp hp]⟩⟩
  | notFound h hp hu =>
    rw [isTrim_iff] at hp
    subst hp
    exact ⟨_, rfl, .inr ⟨h, hu, rfl⟩⟩

theorem firstPrefix_unique {l : List NMeta} {p p' : String} (h : FirstPrefix l p) (h' : FirstPrefix l p') : p = p' := by
  obtain ⟨a, s, b, rfl, h1, h2⟩ := h
  obtain ⟨a', s', b', he, h3, h4⟩ := h'
  rw [isTrim_iff] at h1 h3
  rcases List.append_eq_append_iff.mp he with ⟨x, rfl, hx⟩ | ⟨x, rfl, hx⟩
  · cases x with
    | nil => simp [kv] at hx; obtain ⟨rfl, -⟩ := hx; rw [← h1, ← h3]
    | cons y x =>
      simp only [List.cons_append] at hx
      injection hx with hx _
      subst hx
      exact absurd (by simp) (h4 s)
  · cases x with
    | nil => simp [kv] at hx; obtain ⟨rfl, -⟩ := hx; rw [← h1, ← h3]
    | cons y x =>
      simp only [List.cons_append] at hx
      injection hx with hx _
      subst hx
      exact absurd (by simp) (h2 s')

theorem firstPrefix_not_none {l : List NMeta} {p : String} (h : FirstPrefix l p) : ¬ ∀ s, kv "prefix" s ∉ l := by
  obtain ⟨a, s, b, rfl, -, -⟩ := h
  exact fun hh => hh s (by simp)

theorem nameItemError_unique (mapped : String → String → Prop) (words : List String) (pre : List NMeta) (i : NMeta) (e e' : MErr)
    (h : NameItemError mapped words pre i e) (h' : NameItemError mapped words pre i e') : e = e' := by
  by_cases hk : Known words ["rename", "prefix"] i
  · by_cases hs : ∀ k, i ≠ .nameValue k .other
    · obtain ⟨s, rfl, h1⟩ := nameItemError_known hk hs h
      obtain ⟨s', he, h2⟩ := nameItemError_known hk hs h'
      simp [kv] at he
      subst he
      rcases h1 with ⟨p, h1, rfl⟩ | ⟨h1, -, rfl⟩ <;> rcases h2 with ⟨p', h2, rfl⟩ | ⟨h2, -, rfl⟩
      · rw [firstPrefix_unique h1 h2]
      · exact absurd h2 (firstPrefix_not_none h1)
      · exact absurd h1 (firstPrefix_not_none h2)
      · rfl
    · have : ∃ k, i = .nameValue k .other := Classical.byContradiction fun hh => hs fun k e => hh ⟨k, e⟩
      obtain ⟨k, rfl⟩ := this
      have aux : ∀ e, NameItemError mapped words pre (.nameValue k .other) e → e = .notString := by
        intro e h
        generalize hi : NMeta.nameValue k .other = i at h
        cases h with
        | notUnderstood h => rw [hi] at hk; exact absurd hk h
        | notString => rfl
        | duplicate => simp [kv] at hi
        | notFound => simp [kv] at hi
      rw [aux e h, aux e' h']
  · have aux : ∀ e, NameItemError mapped words pre i e → e = .notUnderstood := by
      intro e h
      cases h with
      | notUnderstood h => rfl
      | notString hs => exact absurd (.inr ⟨_, hs, _, rfl⟩) hk
      | duplicate => exact absurd (.inr ⟨"prefix", by simp, _, rfl⟩) hk
      | notFound => exact absurd (.inr ⟨"prefix", by simp, _, rfl⟩) hk
    rw [aux e h, aux e' h']

/-- What one item on a field or a variant adds to the errors. -/
theorem name_fine {mapped : String → String → Prop} {words : List String} {pre : List NMeta} {i : NMeta} (hk : Known words ["rename", "prefix"] i)
    (hs : ∀ k, i ≠ .nameValue k .other) (hp : ∀ s, i ≠ kv "prefix" s) (e : MErr) : ¬ NameItemError mapped words pre i e := by
  intro h
  obtain ⟨s, h, -⟩ := nameItemError_known hk hs h
  exact hp s h

theorem prefix_errors {mapped : String → String → Prop} {words : List String} {m : SMap String} (hm : ∀ p, m.get p = none ↔ ∀ u, ¬ mapped p u)
    {pre : List NMeta} {name : MName} (hi : PfxInv pre name.pfx) (lit : Lit) (errs : List MErr) :
    PfxInv (pre ++ [.nameValue (some "prefix") lit]) (processPrefix m lit name errs).1.pfx ∧
      StepErr (NameItemError mapped words) pre (.nameValue (some "prefix") lit) errs (processPrefix m lit name errs).2 := by
  cases lit with
  | other =>
    rw [processPrefix_other]
    exact ⟨hi.keep (by simp [kv]), .inr ⟨_, .notString (by simp), rfl⟩⟩
  | str s =>
    have hk : Known words ["rename", "prefix"] (.nameValue (some "prefix") (.str s)) := .inr ⟨"prefix", by simp, _, rfl⟩
    cases hn : name.pfx with
    | some p =>
      rw [processPrefix_again m s name errs p hn, hn]
      have hf := (hi.some p).mp hn
      rw [hn] at hi
      exact ⟨hi.again (by simp) s, .inr ⟨_, .duplicate hf ((isTrim_iff _ _).mpr rfl), rfl⟩⟩
    | none =>
      obtain ⟨h1, es, h2, h3⟩ := processPrefix_errors hm s name errs hn
      rw [h1, h3]
      refine ⟨hi.first hn s, ?_⟩
      have hnone := hi.none.mp hn
      rcases h2 with ⟨h2, rfl⟩ | ⟨h2, rfl⟩
      · exact .inr ⟨_, .notFound hnone ((isTrim_iff _ _).mpr rfl) h2, rfl⟩
      · refine .inl ⟨by simp, fun e he => ?_⟩
        obtain ⟨s', he, h⟩ := nameItemError_known hk (by simp) he
        simp [kv] at he
        subst he
        rcases h with ⟨p, h, -⟩ | ⟨-, h, -⟩
        · exact firstPrefix_not_none h hnone
        · exact h2 h

/-! ### Fields -/

theorem fieldItem_errors {m : SMap String} {mapped : String → String → Prop} (hm : ∀ p, m.get p = none ↔ ∀ u, ¬ mapped p u) (pre : List NMeta)
    (s : FieldState) (i : NMeta) (hi : PfxInv pre s.name.pfx) :
    PfxInv (pre ++ [i]) (fieldItem m s i).name.pfx ∧
      StepErr (NameItemError mapped ["attribute", "default", "flatten", "text"]) pre i s.errs (fieldItem m s i).errs := by
  have hw : ∀ w, w ∈ ["attribute", "default", "flatten", "text"] → PfxInv (pre ++ [.path (some w)]) s.name.pfx ∧
      StepErr (NameItemError mapped ["attribute", "default", "flatten", "text"]) pre (.path (some w)) s.errs s.errs := by
    intro w hw
    exact ⟨hi.keep (by simp [kv]), .inl ⟨rfl, name_fine (.inl ⟨w, hw, rfl⟩) (by simp) (by simp [kv])⟩⟩
  unfold fieldItem
  split
  · exact hw _ (by simp)
  · exact hw _ (by simp)
  · exact hw _ (by simp)
  · exact hw _ (by simp)
  · exact ⟨hi.keep (by simp [kv]), .inl ⟨rfl, name_fine (.inr ⟨"rename", by simp, _, rfl⟩) (by simp) (by simp [kv])⟩⟩
  · exact ⟨hi.keep (by simp [kv]), .inr ⟨_, .notString (by simp), rfl⟩⟩
  · exact prefix_errors hm hi _ _
  · rename_i h1 h2 h3 h4 h5 h6 h7
    have hu : ¬ Known ["attribute", "default", "flatten", "text"] ["rename", "prefix"] i := by
      rintro (⟨w, hw, rfl⟩ | ⟨k, hk, l, rfl⟩)
      · simp only [List.mem_cons, List.not_mem_nil, or_false] at hw
        rcases hw with rfl | rfl | rfl | rfl
        · exact h1 rfl
        · exact h2 rfl
        · exact h3 rfl
        · exact h4 rfl
      · simp only [List.mem_cons, List.not_mem_nil, or_false] at hk
        rcases hk with rfl | rfl
        · cases l with
          | str v => exact h5 _ rfl
          | other => exact h6 rfl
        · exact h7 _ rfl
    exact ⟨hi.keep fun s he => hu (.inr ⟨"prefix", by simp, _, he⟩), .inr ⟨_, .notUnderstood hu, rfl⟩⟩

theorem fieldModeErrors_unique {items : List NMeta} {a b : List MErr} (h : FieldModeErrors items a) (h' : FieldModeErrors items b) : a = b := by
  have two : ∀ {w w' : String}, w ∈ ["attribute", "flatten", "text"] → w' ∈ ["attribute", "flatten", "text"] → w ≠ w' → word w ∈ items →
      word w' ∈ items → (word "attribute" ∈ items ∧ word "flatten" ∈ items) ∨ (word "attribute" ∈ items ∧ word "text" ∈ items) ∨
        (word "flatten" ∈ items ∧ word "text" ∈ items) := by
    intro w w' hw hw' hn h1 h2
    simp only [List.mem_cons, List.not_mem_nil, or_false] at hw hw'
    rcases hw with rfl | rfl | rfl <;> rcases hw' with rfl | rfl | rfl <;> simp_all
  cases h with
  | fine h =>
    cases h' with
    | fine => rfl
    | defaultFlatten => cases h <;> contradiction
    | exclusive hw hw' hn h1 h2 =>
      have := two hw hw' hn h1 h2
      cases h <;> simp_all
  | defaultFlatten =>
    cases h' with
    | fine h => cases h <;> contradiction
    | defaultFlatten => rfl
    | exclusive hw hw' hn h1 h2 =>
      have := two hw hw' hn h1 h2
      simp_all
  | exclusive hw hw' hn h1 h2 =>
    have := two hw hw' hn h1 h2
    cases h' with
    | fine h => cases h <;> simp_all
    | defaultFlatten => simp_all
    | exclusive => rfl

theorem fieldErrors_unique {mapped : String → String → Prop} {f : DField} {a b : List MErr} (h : FieldErrors mapped f a)
    (h' : FieldErrors mapped f b) : a = b := by
  obtain ⟨es, ps, h1, h2, rfl⟩ := h
  obtain ⟨es', ps', h3, h4, rfl⟩ := h'
  rw [itemErrors_unique (nameItemError_unique _ _) h1 h3, fieldModeErrors_unique h2 h4]

theorem elementField_errors {m : SMap String} {mapped : String → String → Prop} (hm : ∀ p, m.get p = none ↔ ∀ u, ¬ mapped p u) (f : DField)
    (errs : List MErr) :
    (∃ es, FieldErrors mapped f es ∧ (elementField m f errs).2 = errs ++ es) ∧
      ((∃ r, (elementField m f errs).1 = some r ∧ r.mode = .text) ↔ FieldMode (attrItems f.attrs) .text) := by
  unfold elementField
  rw [getMetaItems_eq]
  simp only
  obtain ⟨-, es, h1, h2⟩ := fold_errors (fieldItem m) FieldState.errs (fun pre s => PfxInv pre s.name.pfx) (fun pre s i => fieldItem_errors hm pre s i)
    (attrItems f.attrs) [] { «attribute» := false, default := false, flatten := false, text := false, name := .fromIdent f.ident, errs := errs ++ attrErrors f.attrs }
    PfxInv.nil
  have h3 := fieldFold_spec m (attrItems f.attrs)
    { «attribute» := false, default := false, flatten := false, text := false, name := .fromIdent f.ident, errs := errs ++ attrErrors f.attrs }
  generalize List.foldl (fieldItem m) _ _ = s at h2 h3 ⊢
  obtain ⟨-, ha, hd, hf, ht⟩ := h3
  simp only [Bool.false_or] at ha hd hf ht
  have fin : ∀ (ms : List MErr) (r : Option MField), FieldModeErrors (attrItems f.attrs) ms →
      ((∃ x, r = some x ∧ x.mode = .text) ↔ FieldMode (attrItems f.attrs) .text) →
      (∃ es, FieldErrors mapped f es ∧ (r, s.errs ++ ms).2 = errs ++ es) ∧
        ((∃ x, (r, s.errs ++ ms).1 = some x ∧ x.mode = .text) ↔ FieldMode (attrItems f.attrs) .text) :=
    fun ms r hms hr => ⟨⟨_, ⟨es, ms, h1, hms, rfl⟩, by simp [h2]⟩, hr⟩
  have fin' : ∀ (r : Option MField), FieldModeErrors (attrItems f.attrs) [] →
      ((∃ x, r = some x ∧ x.mode = .text) ↔ FieldMode (attrItems f.attrs) .text) →
      (∃ es, FieldErrors mapped f es ∧ (r, s.errs).2 = errs ++ es) ∧
        ((∃ x, (r, s.errs).1 = some x ∧ x.mode = .text) ↔ FieldMode (attrItems f.attrs) .text) := by
    intro r hms hr
    have := fin [] r hms hr
    rwa [List.append_nil] at this
  rw [ha, hd, hf, ht]
  by_cases h3 : word "attribute" ∈ attrItems f.attrs
  · by_cases h4 : word "flatten" ∈ attrItems f.attrs
    · rw [if_neg (by simp [h3, h4]), if_neg (by simp [h3]), if_neg (by simp [h3]), if_neg (by simp [h3])]
      exact fin _ _ (.exclusive (w := "attribute") (w' := "flatten") (by simp) (by simp) (by decide) h3 h4)
        ⟨by simp, fun h => by cases h; contradiction⟩
    · by_cases h5 : word "text" ∈ attrItems f.attrs
      · rw [if_neg (by simp [h3, h4, h5]), if_neg (by simp [h3]), if_neg (by simp [h3]), if_neg (by simp [h3])]
        exact fin _ _ (.exclusive (w := "attribute") (w' := "text") (by simp) (by simp) (by decide) h3 h5)
          ⟨by simp, fun h => by cases h; contradiction⟩
      · rw [if_pos (by simp [h3, h4, h5])]
        exact fin' _ (.fine (.attribute h3 h4 h5)) ⟨by simp, fun h => by cases h; contradiction⟩
  · by_cases h4 : word "flatten" ∈ attrItems f.attrs
    · by_cases h5 : word "text" ∈ attrItems f.attrs
      · rw [if_neg (by simp [h3]), if_neg (by simp [h4]), if_neg (by simp [h5]), if_neg (by simp [h4])]
        exact fin _ _ (.exclusive (w := "flatten") (w' := "text") (by simp) (by simp) (by decide) h4 h5)
          ⟨by simp, fun h => by cases h; contradiction⟩
      · rw [if_neg (by simp [h3]), if_neg (by simp [h4]), if_pos (by simp [h3, h4, h5])]
        by_cases h6 : word "default" ∈ attrItems f.attrs
        · rw [if_pos (by simp [h6])]
          exact fin _ _ (.defaultFlatten h3 h4 h5 h6) ⟨by simp, fun h => by cases h; contradiction⟩
        · rw [if_neg (by simp [h6])]
          exact fin' _ (.fine (.flatten h3 h4 h5 h6)) ⟨by simp, fun h => by cases h; contradiction⟩
    · by_cases h5 : word "text" ∈ attrItems f.attrs
      · rw [if_neg (by simp [h3]), if_neg (by simp [h5]), if_neg (by simp [h5]), if_pos (by simp [h3, h4, h5])]
        exact fin' _ (.fine (.text h3 h4 h5)) ⟨fun _ => .text h3 h4 h5, fun _ => ⟨_, rfl, rfl⟩⟩
      · rw [if_neg (by simp [h3]), if_pos (by simp [h3, h4, h5])]
        exact fin' _ (.fine (.element h3 h4 h5)) ⟨by simp, fun h => by cases h; contradiction⟩

theorem rowwise_unique {α β : Type} {R : α → β → Prop} (hR : ∀ a b b', R a b → R a b' → b = b') {l : List α} {m m' : List β}
    (h : Rowwise R l m) (h' : Rowwise R l m') : m = m' := by
  induction h generalizing m' with
  | nil => cases h'; rfl
  | cons h _ ih =>
    cases h' with
    | cons h1 t1 => rw [hR _ _ _ h h1, ih t1]

theorem elementFields_errors {m : SMap String} {mapped : String → String → Prop} (hm : ∀ p, m.get p = none ↔ ∀ u, ¬ mapped p u) (l : List DField)
    (errs : List MErr) :
    (∃ fs, Rowwise (FieldErrors mapped) l fs ∧ (elementFields m l errs).2 = errs ++ fs.flatten) ∧
      ((((elementFields m l errs).1.filter fun f => f.mode == .text) = [] ↔ ∀ f ∈ l, ¬ FieldMode (attrItems f.attrs) .text) ∧
      (2 ≤ ((elementFields m l errs).1.filter fun f => f.mode == .text).length ↔
        ¬ l.Pairwise fun f g => ¬ (FieldMode (attrItems f.attrs) .text ∧ FieldMode (attrItems g.attrs) .text))) := by
  induction l generalizing errs with
  | nil => exact ⟨⟨[], .nil, by simp [elementFields]⟩, by simp [elementFields], by simp [elementFields]⟩
  | cons f l ih =>
    obtain ⟨⟨es, h1, h2⟩, h3⟩ := elementField_errors hm f errs
    simp only [elementFields]
    generalize elementField m f errs = x at h2 h3 ⊢
    obtain ⟨r, errs1⟩ := x
    simp only at h2 h3 ⊢
    subst h2
    obtain ⟨⟨fs, h4, h5⟩, h6, h7⟩ := ih (errs ++ es)
    generalize elementFields m l (errs ++ es) = x at h5 h6 h7 ⊢
    obtain ⟨rs, errs2⟩ := x
    simp only at h5 h6 h7 ⊢
    subst h5
    refine ⟨⟨es :: fs, .cons h1 h4, by simp⟩, ?_⟩
    rw [List.filter_append]
    by_cases ht : FieldMode (attrItems f.attrs) .text
    · obtain ⟨x, rfl, hx⟩ := h3.mpr ht
      have hl : (Option.some x).toList.filter (fun f : MField => f.mode == .text) = [x] := by simp [hx]
      rw [hl]
      refine ⟨by simp [ht], ?_⟩
      rw [List.pairwise_cons]
      have hlen : 2 ≤ ([x] ++ rs.filter fun f => f.mode == .text).length ↔ ¬ (rs.filter fun f => f.mode == .text) = [] := by
        simp only [List.length_append, List.length_singleton, ← List.length_eq_zero_iff]
        omega
      rw [hlen, h6]
      constructor
      · intro hh ⟨ha, _⟩
        exact hh fun g hg hgt => ha g hg ⟨ht, hgt⟩
      · intro hh ha
        refine hh ⟨fun g hg hgt => ha g hg hgt.2, ?_⟩
        refine List.Pairwise.imp_of_mem (R := fun _ _ => True) ?_ (List.pairwise_of_forall fun _ _ => trivial)
        intro a b ha' _ _ hab
        exact ha a ha' hab.1
    · have hl : r.toList.filter (fun f : MField => f.mode == .text) = [] := by
        cases r with
        | none => rfl
        | some x =>
          have : ¬ x.mode = .text := fun hh => ht (h3.mp ⟨x, rfl, hh⟩)
          simp [this]
      rw [hl, List.nil_append]
      refine ⟨by rw [h6]; simp [ht], ?_⟩
      rw [h7, List.pairwise_cons]
      simp [ht]

/-! ### Variants -/

theorem variantLoop_errors {m : SMap String} {mapped : String → String → Prop} (hm : ∀ p, m.get p = none ↔ ∀ u, ¬ mapped p u) (l : List NMeta)
    {pre : List NMeta} {name : MName} (hi : PfxInv pre name.pfx) (errs : List MErr) :
    (∃ es, ItemErrors (NameItemError mapped []) pre (beforeSkip l) es ∧ (variantLoop m l name errs).2 = errs ++ es) ∧
      ((variantLoop m l name errs).1 = none ↔ word "skip" ∈ l) := by
  have go : ∀ (i : NMeta) (l : List NMeta), i ≠ word "skip" → beforeSkip (i :: l) = i :: beforeSkip l ∧ (word "skip" ∈ i :: l ↔ word "skip" ∈ l) := by
    intro i l h
    exact ⟨by simp [beforeSkip, h], by simp [Ne.symm h]⟩
  fun_induction variantLoop m l name errs generalizing pre with
  | case1 => exact ⟨⟨[], .nil, by simp⟩, by simp⟩
  | case2 v l name errs ih =>
    obtain ⟨h1, h2⟩ := ih (hi.keep (i := .nameValue (some "rename") (.str v)) (by simp [kv]))
    rw [(go _ l (by simp [word])).1, (go _ l (by simp [word])).2]
    exact ⟨StepErr.cons (.inl ⟨rfl, name_fine (.inr ⟨"rename", by simp, _, rfl⟩) (by simp) (by simp [kv])⟩) h1, h2⟩
  | case3 l name errs ih =>
    obtain ⟨h1, h2⟩ := ih (hi.keep (i := .nameValue (some "rename") .other) (by simp [kv]))
    rw [(go _ l (by simp [word])).1, (go _ l (by simp [word])).2]
    exact ⟨StepErr.cons (.inr ⟨_, .notString (by simp), rfl⟩) h1, h2⟩
  | case4 lit l name errs ih =>
    obtain ⟨h3, h4⟩ := prefix_errors (words := []) hm hi lit errs
    obtain ⟨h1, h2⟩ := ih h3
    rw [(go _ l (by simp [word])).1, (go _ l (by simp [word])).2]
    exact ⟨StepErr.cons h4 h1, h2⟩
  | case5 => exact ⟨⟨[], by simp [beforeSkip, word, ItemErrors.nil], by simp⟩, by simp [word]⟩
  | case6 i l name errs h1 h2 h3 h4 ih =>
    have hu : ¬ Known [] ["rename", "prefix"] i := by
      rintro (⟨w, hw, -⟩ | ⟨k, hk, l, rfl⟩)
      · simp at hw
      · simp only [List.mem_cons, List.not_mem_nil, or_false] at hk
        rcases hk with rfl | rfl
        · cases l with
          | str v => exact h1 _ rfl
          | other => exact h2 rfl
        · exact h3 _ rfl
    have hp : ∀ s, i ≠ kv "prefix" s := fun s he => h3 _ he
    obtain ⟨h5, h6⟩ := ih (hi.keep hp)
    rw [(go i l h4).1, (go i l h4).2]
    exact ⟨StepErr.cons (.inr ⟨_, .notUnderstood hu, rfl⟩) h5, h6⟩

theorem variantErrors_unique {mapped : String → String → Prop} {v : DVariant} {a b : List MErr} (h : VariantErrors mapped v a)
    (h' : VariantErrors mapped v b) : a = b := by
  obtain ⟨es, ps, h1, h2, rfl⟩ := h
  obtain ⟨es', ps', h3, h4, rfl⟩ := h'
  rw [itemErrors_unique (nameItemError_unique _ _) h1 h3, reportIf_unique h2 h4]

theorem elementVariant_errors {m : SMap String} {mapped : String → String → Prop} (hm : ∀ p, m.get p = none ↔ ∀ u, ¬ mapped p u) (v : DVariant)
    (errs : List MErr) : ∃ es, VariantErrors mapped v es ∧ (elementVariant m v errs).2.2 = errs ++ es := by
  unfold elementVariant
  rw [getMetaItems_eq]
  simp only
  obtain ⟨⟨es, h1, h2⟩, h3⟩ := variantLoop_errors hm (attrItems v.attrs) (name := .fromIdent v.ident) PfxInv.nil (errs ++ attrErrors v.attrs)
  split
  · rename_i heq
    rw [heq] at h2 h3
    simp only [true_iff] at h2 h3
    exact ⟨_, ⟨es, [], h1, .inr ⟨fun h => h.1 h3, rfl⟩, rfl⟩, by simp [h2]⟩
  · rename_i heq
    rw [heq] at h2 h3
    simp only [reduceCtorEq, false_iff] at h2 h3
    split
    · rename_i hv
      exact ⟨_, ⟨es, [], h1, .inr ⟨fun h => h.2.1 hv, rfl⟩, rfl⟩, by simp [h2]⟩
    · rename_i hv
      split
      · rename_i hv'
        exact ⟨_, ⟨es, [], h1, .inr ⟨fun h => h.2.2 hv', rfl⟩, rfl⟩, by simp [h2]⟩
      · rename_i hv'
        exact ⟨_, ⟨es, _, h1, .inl ⟨⟨h3, hv, hv'⟩, rfl⟩, rfl⟩, by simp [h2]⟩

theorem elementVariants_errors {m : SMap String} {mapped : String → String → Prop} (hm : ∀ p, m.get p = none ↔ ∀ u, ¬ mapped p u)
    (l : List DVariant) (errs : List MErr) :
    ∃ ws, Rowwise (VariantErrors mapped) l ws ∧ (elementVariants m l errs).2.2 = errs ++ ws.flatten := by
  induction l generalizing errs with
  | nil => exact ⟨[], .nil, by simp [elementVariants]⟩
  | cons v l ih =>
    obtain ⟨es, h1, h2⟩ := elementVariant_errors hm v errs
    simp only [elementVariants]
    obtain ⟨ws, h3, h4⟩ := ih (elementVariant m v errs).2.2
    exact ⟨es :: ws, .cons h1 h3, by rw [h4, h2]; simp⟩

/-! ### Declarations -/

theorem describe_errors {d : Decl} {r : Option Described} {errs : List MErr} (h : describe d = .ok (r, errs)) : DeclErrors d errs := by
  unfold describe at h
  unfold DeclErrors
  split at h
  · rename_i vs hd
    simp only [hd]
    split at h
    · simp at h
    · rename_i e errs' he
      injection h with h; injection h with _ h; subst h
      unfold elementEnum at he
      split at he
      · simp at he
      · rename_i attr errs1 ha
        obtain ⟨⟨ts, h1, h2⟩, h3⟩ := elementAttr_errors ha
        obtain ⟨ws, h4, h5⟩ := elementVariants_errors h3 vs errs1
        simp only at he
        injection he with he; injection he with _ he; subst he
        exact ⟨ts, ws, h1, h4, by rw [h5, h2]; simp⟩
  · rename_i fields hd
    simp only [hd]
    split at h
    · simp at h
    · rename_i e errs' he
      injection h with h; injection h with _ h; subst h
      unfold elementStruct at he
      split at he
      · simp at he
      · rename_i attr errs1 ha
        obtain ⟨⟨ts, h1, h2⟩, h3⟩ := elementAttr_errors ha
        obtain ⟨⟨fs, h4, h5⟩, -, h6⟩ := elementFields_errors h3 fields errs1
        simp only at he
        split at he
        · rename_i hl
          injection he with he; injection he with _ he; subst he
          exact ⟨ts, fs, _, h1, h4, .inl ⟨h6.mp hl, rfl⟩, by rw [h5, h2]; simp⟩
        · rename_i hl
          injection he with he; injection he with _ he; subst he
          exact ⟨ts, fs, [], h1, h4, .inr ⟨fun hh => hl (h6.mpr hh), rfl⟩, by rw [h5, h2]; simp⟩
  · rename_i hd
    simp only [hd]
    split at h
    · simp at h
    · rename_i e errs' he
      injection h with h; injection h with _ h; subst h
      unfold elementStruct at he
      split at he
      · simp at he
      · rename_i attr errs1 ha
        obtain ⟨⟨ts, h1, h2⟩, h3⟩ := elementAttr_errors ha
        simp only at he
        injection he with he; injection he with _ he; subst he
        exact ⟨ts, h1, by rw [h2]; simp⟩
  · rename_i hd
    simp only [hd]
    injection h with h; injection h with _ h; exact h.symm

theorem declErrors_unique {d : Decl} {a b : List MErr} (h : DeclErrors d a) (h' : DeclErrors d b) : a = b := by
  unfold DeclErrors at h h'
  split at h
  · rename_i hd
    simp only [hd] at h'
    rw [h, h']
  · rename_i hd
    simp only [hd] at h'
    obtain ⟨ts, h1, rfl⟩ := h
    obtain ⟨ts', h2, rfl⟩ := h'
    rw [typeErrors_unique h1 h2]
  · rename_i fields hd
    simp only [hd] at h'
    obtain ⟨ts, fs, ms, h1, h2, h3, rfl⟩ := h
    obtain ⟨ts', fs', ms', h4, h5, h6, rfl⟩ := h'
    rw [typeErrors_unique h1 h4, rowwise_unique (R := FieldErrors _) (fun _ _ _ => fieldErrors_unique) h2 h5, reportIf_unique h3 h6]
  · rename_i vs hd
    simp only [hd] at h'
    obtain ⟨ts, ws, h1, h2, rfl⟩ := h
    obtain ⟨ts', ws', h4, h5, rfl⟩ := h'
    rw [typeErrors_unique h1 h4, rowwise_unique (R := VariantErrors _) (fun _ _ _ => variantErrors_unique) h2 h5]

/-! ### Text types -/

/-- The mode is the first known one given. -/
structure ModeInv (pre : List NMeta) (mode : Option TextMode) : Prop where
  some : ∀ md, mode = some md ↔ ∃ v, FirstMode pre v ∧ modeOf v = Option.some md
  none : mode = none ↔ ¬ ModeGiven pre

theorem ModeInv.nil : ModeInv [] Option.none where
  some md := by
    constructor
    · exact nofun
    · rintro ⟨v, ⟨a, b, h, -⟩, -⟩; simp at h
  none := by simp [ModeGiven]

theorem modeGiven_snoc (l : List NMeta) (i : NMeta) :
    ModeGiven (l ++ [i]) ↔ ModeGiven l ∨ ∃ v ∈ ["std", "restriction", "union"], i = kv "mode" v := by
  unfold ModeGiven
  simp only [List.mem_append, List.mem_singleton]
  constructor
  · rintro ⟨v, hv, h | h⟩
    · exact .inl ⟨v, hv, h⟩
    · exact .inr ⟨v, hv, h.symm⟩
  · rintro (⟨v, hv, h⟩ | ⟨v, hv, h⟩)
    · exact ⟨v, hv, .inl h⟩
    · exact ⟨v, hv, .inr h.symm⟩

theorem firstMode_snoc (l : List NMeta) (i : NMeta) (v : String) :
    FirstMode (l ++ [i]) v ↔ FirstMode l v ∨ (i = kv "mode" v ∧ v ∈ ["std", "restriction", "union"] ∧ ¬ ModeGiven l) := by
  have key : ∀ l, FirstMode l v ↔ ∃ a i b, l = a ++ i :: b ∧ (i = kv "mode" v ∧ v ∈ ["std", "restriction", "union"] ∧ ¬ ModeGiven a) := by
    intro l
    constructor
    · rintro ⟨a, b, h, h1, h2⟩; exact ⟨a, _, b, h, rfl, h1, h2⟩
    · rintro ⟨a, _, b, h, rfl, h1, h2⟩; exact ⟨a, b, h, h1, h2⟩
  rw [key, key]
  exact split_snoc (fun a i => i = kv "mode" v ∧ v ∈ ["std", "restriction", "union"] ∧ ¬ ModeGiven a) l i

theorem ModeInv.keep {pre : List NMeta} {mode : Option TextMode} (h : ModeInv pre mode) {i : NMeta}
    (hi : ModeGiven pre ∨ ∀ v ∈ ["std", "restriction", "union"], i ≠ kv "mode" v) : ModeInv (pre ++ [i]) mode where
  some md := by
    rw [h.some]
    refine exists_congr fun v => and_congr_left fun _ => ?_
    rw [firstMode_snoc]
    refine ⟨.inl, fun hh => hh.elim id ?_⟩
    rintro ⟨h1, h2, h3⟩
    exact hi.elim (fun hg => absurd hg h3) fun hg => absurd h1 (hg v h2)
  none := by
    rw [h.none, modeGiven_snoc]
    refine not_congr ⟨.inl, fun hh => hh.elim id ?_⟩
    rintro ⟨v, hv, h1⟩
    exact hi.elim id fun hg => absurd h1 (hg v hv)

theorem ModeInv.first {pre : List NMeta} {mode : Option TextMode} (h : ModeInv pre mode) (hn : mode = Option.none) {v : String} {md : TextMode}
    (hv : modeOf v = Option.some md) : ModeInv (pre ++ [kv "mode" v]) (Option.some md) where
  some md' := by
    have hg := h.none.mp hn
    have hk := (modeOf_isSome v).mp ⟨md, hv⟩
    constructor
    · intro he
      simp at he
      subst he
      exact ⟨v, (firstMode_snoc _ _ _).mpr (.inr ⟨rfl, hk, hg⟩), hv⟩
    · rintro ⟨w, hw, hm⟩
      rcases (firstMode_snoc _ _ _).mp hw with hw | ⟨hw, -⟩
      · have := (h.some md').mpr ⟨w, hw, hm⟩
        rw [hn] at this; simp at this
      · simp [kv] at hw
        subst hw
        rw [← hv, hm]
  none := by
    have hk := (modeOf_isSome v).mp ⟨md, hv⟩
    simp only [reduceCtorEq, false_iff, Classical.not_not]
    exact (modeGiven_snoc _ _).mpr (.inr ⟨v, hk, rfl⟩)

theorem textItemError_whitespace {pre : List NMeta} {v : String} {e : MErr} (h : TextItemError pre (kv "whitespace" v) e) :
    v ∉ ["preserve", "replace", "collapse"] ∧ e = .badWhitespace := by
  generalize hi : kv "whitespace" v = i at h
  cases h with
  | notUnderstood h => subst hi; exact absurd (.inr ⟨"whitespace", by simp, _, rfl⟩) h
  | whitespace h => simp [kv] at hi; subst hi; exact ⟨h, rfl⟩
  | whitespaceString => simp [kv] at hi
  | redundant => simp [kv] at hi
  | unknown => simp [kv] at hi
  | modeString => simp [kv] at hi

theorem textItemError_mode {pre : List NMeta} {l : Lit} {e : MErr} (h : TextItemError pre (.nameValue (some "mode") l) e) :
    (ModeGiven pre ∧ e = .redundantMode) ∨ (¬ ModeGiven pre ∧ ((∃ v, l = .str v ∧ v ∉ ["std", "restriction", "union"] ∧ e = .unknownMode) ∨
      (l = .other ∧ e = .notString))) := by
  generalize hi : NMeta.nameValue (some "mode") l = i at h
  cases h with
  | notUnderstood h => subst hi; exact absurd (.inr ⟨"mode", by simp, _, rfl⟩) h
  | whitespace h => simp [kv] at hi
  | whitespaceString => simp at hi
  | redundant h => exact .inl ⟨h, rfl⟩
  | unknown h hv => simp [kv] at hi; subst hi; exact .inr ⟨h, .inl ⟨_, rfl, hv, rfl⟩⟩
  | modeString h => simp at hi; exact .inr ⟨h, .inr ⟨hi, rfl⟩⟩

theorem textItemError_unique (pre : List NMeta) (i : NMeta) (e e' : MErr) (h : TextItemError pre i e) (h' : TextItemError pre i e') : e = e' := by
  cases h with
  | notUnderstood h =>
    cases h' with
    | notUnderstood => rfl
    | whitespace => exact absurd (.inr ⟨"whitespace", by simp, _, rfl⟩) h
    | whitespaceString => exact absurd (.inr ⟨"whitespace", by simp, _, rfl⟩) h
    | redundant => exact absurd (.inr ⟨"mode", by simp, _, rfl⟩) h
    | unknown => exact absurd (.inr ⟨"mode", by simp, _, rfl⟩) h
    | modeString => exact absurd (.inr ⟨"mode", by simp, _, rfl⟩) h
  | whitespace h => exact (textItemError_whitespace h').2.symm
  | whitespaceString =>
    generalize hi : NMeta.nameValue (some "whitespace") .other = i at h'
    cases h' with
    | notUnderstood h => subst hi; exact absurd (.inr ⟨"whitespace", by simp, _, rfl⟩) h
    | whitespace => simp [kv] at hi
    | whitespaceString => rfl
    | redundant => simp at hi
    | unknown => simp [kv] at hi
    | modeString => simp at hi
  | redundant h =>
    rcases textItemError_mode h' with ⟨-, rfl⟩ | ⟨h1, -⟩
    · rfl
    · exact absurd h h1
  | unknown h hv =>
    rcases textItemError_mode h' with ⟨h1, rfl⟩ | ⟨-, ⟨v, -, -, rfl⟩ | ⟨h1, -⟩⟩
    · exact absurd h1 h
    · rfl
    · simp at h1
  | modeString h =>
    rcases textItemError_mode h' with ⟨h1, rfl⟩ | ⟨-, ⟨v, h1, -, rfl⟩ | ⟨-, rfl⟩⟩
    · exact absurd h1 h
    · simp at h1
    · rfl

theorem textItem_errors (pre : List NMeta) (s : TextState) (i : NMeta) (hi : ModeInv pre s.mode) :
    ModeInv (pre ++ [i]) (textItem s i).mode ∧ StepErr TextItemError pre i s.errs (textItem s i).errs := by
  have hw : ∀ v, v ∈ ["preserve", "replace", "collapse"] → ModeInv (pre ++ [.nameValue (some "whitespace") (.str v)]) s.mode ∧
      StepErr TextItemError pre (.nameValue (some "whitespace") (.str v)) s.errs s.errs := by
    intro v hv
    exact ⟨hi.keep (.inr (by simp [kv])), .inl ⟨rfl, fun e he => (textItemError_whitespace he).1 hv⟩⟩
  have hf : ∀ v md, modeOf v = some md → s.mode = none → ModeInv (pre ++ [.nameValue (some "mode") (.str v)]) (some md) ∧
      StepErr TextItemError pre (.nameValue (some "mode") (.str v)) s.errs s.errs := by
    intro v md hv hn
    refine ⟨hi.first hn hv, .inl ⟨rfl, fun e he => ?_⟩⟩
    rcases textItemError_mode he with ⟨h1, -⟩ | ⟨-, ⟨w, h1, h2, -⟩ | ⟨h1, -⟩⟩
    · exact hi.none.mp hn h1
    · simp at h1; subst h1
      exact h2 ((modeOf_isSome v).mp ⟨md, hv⟩)
    · simp at h1
  unfold textItem
  split
  · exact hw _ (by simp)
  · exact hw _ (by simp)
  · exact hw _ (by simp)
  · rename_i v h1 h2 h3
    refine ⟨hi.keep (.inr (by simp [kv])), .inr ⟨_, .whitespace ?_, rfl⟩⟩
    simp only [List.mem_cons, List.not_mem_nil, or_false, not_or]
    exact ⟨fun h => h1 h, fun h => h2 h, fun h => h3 h⟩
  · exact ⟨hi.keep (.inr (by simp [kv])), .inr ⟨_, .whitespaceString, rfl⟩⟩
  · rename_i lit
    by_cases hn : s.mode = none
    · rw [if_neg (by simp [hn])]
      have hg := hi.none.mp hn
      split
      · exact hf _ _ rfl hn
      · exact hf _ _ rfl hn
      · exact hf _ _ rfl hn
      · rename_i v h1 h2 h3
        have hv : v ∉ ["std", "restriction", "union"] := by
          simp only [List.mem_cons, List.not_mem_nil, or_false, not_or]
          exact ⟨fun h => h1 h, fun h => h2 h, fun h => h3 h⟩
        refine ⟨hi.keep (.inr ?_), .inr ⟨_, .unknown hg hv, rfl⟩⟩
        intro w hw he
        simp [kv] at he
        subst he
        exact hv hw
      · exact ⟨hi.keep (.inr (by simp [kv])), .inr ⟨_, .modeString hg, rfl⟩⟩
    · rw [if_pos (by simpa [Option.isSome_iff_ne_none] using hn)]
      have hg : ModeGiven pre := Classical.byContradiction fun h => hn (hi.none.mpr h)
      exact ⟨hi.keep (.inl hg), .inr ⟨_, .redundant hg, rfl⟩⟩
  · rename_i h1 h2 h3 h4 h5 h6
    have hu : ¬ Known [] ["whitespace", "mode"] i := by
      rintro (⟨w, hw, -⟩ | ⟨k, hk, l, rfl⟩)
      · simp at hw
      · simp only [List.mem_cons, List.not_mem_nil, or_false] at hk
        rcases hk with rfl | rfl
        · cases l with
          | str v => exact h4 _ rfl
          | other => exact h5 rfl
        · exact h6 _ rfl
    refine ⟨hi.keep (.inr ?_), .inr ⟨_, .notUnderstood hu, rfl⟩⟩
    intro v _ he
    exact h6 _ he

theorem restrictionItemError_unique (pre : List NMeta) (i : NMeta) (e e' : MErr) (h : RestrictionItemError pre i e)
    (h' : RestrictionItemError pre i e') : e = e' := by
  cases h with
  | notUnderstood h =>
    cases h' with
    | notUnderstood => rfl
    | notString => exact absurd (.inr ⟨"rename", by simp, _, rfl⟩) h
  | notString =>
    cases h' with
    | notUnderstood h => exact absurd (.inr ⟨"rename", by simp, _, rfl⟩) h
    | notString => rfl

theorem restrictionErrors_unique {before : List DVariant} {v : DVariant} {a b : List MErr} (h : RestrictionErrors before v a)
    (h' : RestrictionErrors before v b) : a = b := by
  obtain ⟨es, rs, us, ds, ks, h1, h2, h3, h4, h5, rfl⟩ := h
  obtain ⟨es', rs', us', ds', ks', g1, g2, g3, g4, g5, rfl⟩ := h'
  rw [itemErrors_unique restrictionItemError_unique h1 g1, reportIf_unique h2 g2, reportIf_unique h3 g3, reportIf_unique h4 g4,
    reportIf_unique h5 g5]

theorem restrictionsErrors_unique {before l : List DVariant} {a b : List MErr} (h : RestrictionsErrors before l a)
    (h' : RestrictionsErrors before l b) : a = b := by
  induction h generalizing b with
  | nil => cases h'; rfl
  | cons h _ ih =>
    cases h' with
    | cons h1 t1 => rw [restrictionErrors_unique h h1, ih t1]

theorem restrictionItem_errors (pre : List NMeta) (s : RestrictionState) (i : NMeta)
    (hi : (s.unknown = true ↔ word "unknown" ∈ pre) ∧ (s.text.isSome = true ↔ ∃ t, kv "rename" t ∈ pre)) :
    (((restrictionItem s i).unknown = true ↔ word "unknown" ∈ pre ++ [i]) ∧
      ((restrictionItem s i).text.isSome = true ↔ ∃ t, kv "rename" t ∈ pre ++ [i])) ∧
    StepErr RestrictionItemError pre i s.errs (restrictionItem s i).errs := by
  obtain ⟨hu, ht⟩ := hi
  unfold restrictionItem
  split
  · refine ⟨⟨by simp [word], by simp [kv, ht]⟩, .inl ⟨rfl, ?_⟩⟩
    intro e he
    cases he with
    | notUnderstood h => exact h (.inl ⟨"unknown", by simp, rfl⟩)
  · refine ⟨⟨by simp [word, hu], ?_⟩, .inl ⟨rfl, ?_⟩⟩
    · simp only [Option.isSome_some, true_iff]
      exact ⟨_, List.mem_append_right _ (List.mem_singleton.mpr rfl)⟩
    · intro e he
      cases he with
      | notUnderstood h => exact h (.inr ⟨"rename", by simp, _, rfl⟩)
  · exact ⟨⟨by simp [word, hu], by simp [kv, ht]⟩, .inr ⟨_, .notString, rfl⟩⟩
  · rename_i h1 h2 h3
    have hk : ¬ Known ["unknown"] ["rename"] i := by
      rintro (⟨w, hw, rfl⟩ | ⟨k, hk, l, rfl⟩)
      · simp at hw; subst hw; exact h1 rfl
      · simp at hk; subst hk
        cases l with
        | str v => exact h2 _ rfl
        | other => exact h3 rfl
    refine ⟨⟨?_, ?_⟩, .inr ⟨_, .notUnderstood hk, rfl⟩⟩
    · rw [hu]
      simp only [List.mem_append, List.mem_singleton]
      exact ⟨.inl, fun h => h.elim id fun h => absurd h.symm h1⟩
    · rw [ht]
      simp only [List.mem_append, List.mem_singleton]
      refine exists_congr fun t => ⟨.inl, fun h => h.elim id fun h => absurd h.symm (h2 t)⟩

theorem restrictionVariants_errors (l : List DVariant) {before : List DVariant} {seen : Bool} (hs : seen = true ↔ ∃ w ∈ before, Unknown w)
    (errs : List MErr) : ∃ es, RestrictionsErrors before l es ∧ (restrictionVariants l seen errs).2 = errs ++ es := by
  induction l generalizing before seen errs with
  | nil => exact ⟨[], .nil, by simp [restrictionVariants]⟩
  | cons v l ih =>
    simp only [restrictionVariants]
    rw [getMetaItems_eq]
    simp only
    obtain ⟨⟨hu, ht⟩, es, h1, h2⟩ := fold_errors restrictionItem RestrictionState.errs
      (fun pre s => (s.unknown = true ↔ word "unknown" ∈ pre) ∧ (s.text.isSome = true ↔ ∃ t, kv "rename" t ∈ pre)) restrictionItem_errors
      (attrItems v.attrs) [] { text := none, unknown := false, errs := errs ++ attrErrors v.attrs } (by simp)
    generalize List.foldl restrictionItem _ _ = s at hu ht h2 ⊢
    simp only [List.nil_append] at hu ht h2
    have hbefore : ∀ b : Bool, (b = true ↔ Unknown v) → ((seen || b) = true ↔ ∃ w ∈ before ++ [v], Unknown w) := by
      intro b hb
      rw [Bool.or_eq_true, hs, hb]
      constructor
      · rintro (⟨w, hw, h⟩ | h)
        · exact ⟨w, by simp [hw], h⟩
        · exact ⟨v, by simp, h⟩
      · rintro ⟨w, hw, h⟩
        rcases List.mem_append.mp hw with hw | hw
        · exact .inl ⟨w, hw, h⟩
        · simp at hw; subst hw; exact .inr h
    by_cases hun : s.unknown = true
    · rw [if_pos hun]
      have hU : Unknown v := hu.mp hun
      have hb := hbefore true (by simp [hU])
      rw [Bool.or_true] at hb
      obtain ⟨rest, h3, h4⟩ := ih hb (s.errs ++ (if s.text.isSome = true then [MErr.unknownRename] else []) ++
        (if v.fields = .unnamed 1 then [] else [MErr.unknownFields]) ++ if seen = true then [MErr.duplicateUnknown] else [])
      refine ⟨_, .cons ⟨es, _, _, _, [], h1, reportIf_of (q := s.text.isSome = true) (by rw [ht]; simp [hU]) _,
        reportIf_unless (q := v.fields = .unnamed 1) (by simp [hU]) _, reportIf_of (q := seen = true) (by rw [hs]; simp [hU]) _,
        .inr ⟨fun h => h.1 hU, rfl⟩, rfl⟩ h3, ?_⟩
      simp only
      rw [h4, h2]
      simp
    · rw [if_neg hun]
      have hU : ¬ Unknown v := fun h => hun (hu.mpr h)
      have hb := hbefore false (by simp [hU])
      rw [Bool.or_false] at hb
      obtain ⟨rest, h3, h4⟩ := ih hb (s.errs ++ if v.fields = .unit then [] else [MErr.knownFields])
      refine ⟨_, .cons ⟨es, [], [], [], _, h1, .inr ⟨fun h => hU h.1, rfl⟩, .inr ⟨fun h => hU h.1, rfl⟩, .inr ⟨fun h => hU h.1, rfl⟩,
        reportIf_unless (q := v.fields = .unit) (by simp [hU]) _, rfl⟩ h3, ?_⟩
      simp only
      rw [h4, h2]
      simp

theorem unionErrors_unique {v : DVariant} {a b : List MErr} (h : UnionErrors v a) (h' : UnionErrors v b) : a = b := by
  obtain ⟨ss, h1, rfl⟩ := h
  obtain ⟨ss', h2, rfl⟩ := h'
  rw [reportIf_unique h1 h2]

theorem unionVariants_errors (l : List DVariant) (i : Nat) (errs : List MErr) :
    ∃ ws, Rowwise UnionErrors l ws ∧ (unionVariants l i errs).2 = errs ++ ws.flatten := by
  induction l generalizing i errs with
  | nil => exact ⟨[], .nil, by simp [unionVariants]⟩
  | cons v l ih =>
    simp only [unionVariants]
    rw [getMetaItems_eq]
    simp only
    have hr : ((attrItems v.attrs).map fun _ => MErr.notUnderstood) = List.replicate (attrItems v.attrs).length .notUnderstood := by
      rw [List.map_const']
    rw [hr]
    split
    · rename_i hv
      obtain ⟨ws, h1, h2⟩ := ih (i + 1) (errs ++ attrErrors v.attrs ++ List.replicate (attrItems v.attrs).length .notUnderstood)
      refine ⟨_, .cons ⟨[], .inr ⟨fun h => h hv, rfl⟩, rfl⟩ h1, ?_⟩
      simp only
      rw [h2]; simp
    · rename_i hv
      obtain ⟨ws, h1, h2⟩ := ih (i + 1)
        (errs ++ attrErrors v.attrs ++ List.replicate (attrItems v.attrs).length .notUnderstood ++ [.variantFields])
      refine ⟨_, .cons ⟨[.variantFields], .inl ⟨hv, rfl⟩, rfl⟩ h1, ?_⟩
      rw [h2]; simp

theorem describeText_errors (d : Decl) : TextErrors d (describeText d).2 := by
  obtain ⟨hi, es, h1, h2⟩ := fold_errors textItem TextState.errs (fun pre s => ModeInv pre s.mode) textItem_errors (attrItems d.attrs) []
    { ws := .preserve, mode := none, errs := [] ++ attrErrors d.attrs } ModeInv.nil
  unfold describeText textAttr
  rw [getMetaItems_eq]
  simp only
  generalize List.foldl textItem _ _ = s at hi h2 ⊢
  simp only [List.nil_append] at hi h2
  have hfirst : ∀ md, s.mode = some md → ∃ v, FirstMode (attrItems d.attrs) v ∧ modeOf v = some md := fun md h => (hi.some md).mp h
  cases hm : s.mode with
  | none => exact ⟨es, _, h1, by simp only [h2], .inl ⟨hi.none.mp hm, rfl⟩⟩
  | some md =>
    obtain ⟨v, hv, hvm⟩ := hfirst md hm
    have hc := (modeOf_some v md).mp hvm
    have henm : (∃ vs, d.data = .enm vs) ∨ ∀ vs, d.data ≠ .enm vs := by
      cases d.data with
      | enm vs => exact .inl ⟨vs, rfl⟩
      | _ => exact .inr nofun
    rcases hc with ⟨rfl, rfl⟩ | ⟨rfl, rfl⟩ | ⟨rfl, rfl⟩
    · exact ⟨es, [], h1, by simp [h2], .inr (.inl ⟨hv, rfl⟩)⟩
    · rcases henm with ⟨vs, hd⟩ | hd
      · rw [hd]
        simp only [if_true]
        obtain ⟨rest, h3, h4⟩ := restrictionVariants_errors vs (before := []) (seen := false) (by simp) s.errs
        exact ⟨es, rest, h1, by rw [h4, h2], .inr (.inr (.inl ⟨hv, .inl ⟨vs, hd, h3⟩⟩))⟩
      · refine ⟨es, [.unsupported], h1, ?_, .inr (.inr (.inl ⟨hv, .inr ⟨hd, rfl⟩⟩))⟩
        cases hdd : d.data with
        | enm vs => exact absurd hdd (hd vs)
        | _ => simp [h2]
    · rcases henm with ⟨vs, hd⟩ | hd
      · rw [hd]
        simp only [reduceCtorEq, if_false]
        obtain ⟨ws, h3, h4⟩ := unionVariants_errors vs 0 s.errs
        exact ⟨es, _, h1, by rw [h4, h2], .inr (.inr (.inr ⟨hv, .inl ⟨vs, ws, hd, h3, rfl⟩⟩))⟩
      · refine ⟨es, [.unsupported], h1, ?_, .inr (.inr (.inr ⟨hv, .inr ⟨hd, rfl⟩⟩))⟩
        cases hdd : d.data with
        | enm vs => exact absurd hdd (hd vs)
        | _ => simp [h2]

theorem firstMode_given {l : List NMeta} {v : String} (h : FirstMode l v) : ModeGiven l := by
  obtain ⟨a, b, rfl, h1, -⟩ := h
  exact ⟨v, h1, by simp⟩

theorem firstMode_unique {l : List NMeta} {v w : String} (h : FirstMode l v) (h' : FirstMode l w) : v = w := by
  obtain ⟨a, b, rfl, h1, h2⟩ := h
  obtain ⟨a', b', he, h3, h4⟩ := h'
  rcases List.append_eq_append_iff.mp he with ⟨x, rfl, hx⟩ | ⟨x, rfl, hx⟩
  · cases x with
    | nil => simp [kv] at hx; exact hx.1
    | cons y x =>
      simp only [List.cons_append] at hx
      injection hx with hx _
      subst hx
      exact absurd ⟨v, h1, by simp⟩ h4
  · cases x with
    | nil => simp [kv] at hx; exact hx.1.symm
    | cons y x =>
      simp only [List.cons_append] at hx
      injection hx with hx _
      subst hx
      exact absurd ⟨w, h3, by simp⟩ h2

theorem textErrors_unique {d : Decl} {a b : List MErr} (h : TextErrors d a) (h' : TextErrors d b) : a = b := by
  obtain ⟨es, rest, h1, rfl, h2⟩ := h
  obtain ⟨es', rest', g1, rfl, g2⟩ := h'
  rw [itemErrors_unique textItemError_unique h1 g1]
  suffices rest = rest' by rw [this]
  have diff : ∀ {v w : String}, FirstMode (attrItems d.attrs) v → FirstMode (attrItems d.attrs) w → v ≠ w → rest = rest' :=
    fun hv hw hn => absurd (firstMode_unique hv hw) hn
  rcases h2 with ⟨h2, rfl⟩ | ⟨h2, rfl⟩ | ⟨h2, h3⟩ | ⟨h2, h3⟩ <;> rcases g2 with ⟨g2, rfl⟩ | ⟨g2, rfl⟩ | ⟨g2, g3⟩ | ⟨g2, g3⟩
  · rfl
  · exact absurd (firstMode_given g2) h2
  · exact absurd (firstMode_given g2) h2
  · exact absurd (firstMode_given g2) h2
  · exact absurd (firstMode_given h2) g2
  · rfl
  · exact diff h2 g2 (by decide)
  · exact diff h2 g2 (by decide)
  · exact absurd (firstMode_given h2) g2
  · exact diff h2 g2 (by decide)
  · rcases h3 with ⟨vs, h3, h4⟩ | ⟨h3, rfl⟩ <;> rcases g3 with ⟨ws, g3, g4⟩ | ⟨g3, rfl⟩
    · rw [h3] at g3; injection g3 with g3; subst g3
      exact restrictionsErrors_unique h4 g4
    · exact absurd h3 (g3 _)
    · exact absurd g3 (h3 _)
    · rfl
  · exact diff h2 g2 (by decide)
  · exact absurd (firstMode_given h2) g2
  · exact diff h2 g2 (by decide)
  · exact diff h2 g2 (by decide)
  · rcases h3 with ⟨vs, us, h3, h4, rfl⟩ | ⟨h3, rfl⟩ <;> rcases g3 with ⟨ws, us', g3, g4, rfl⟩ | ⟨g3, rfl⟩
    · rw [h3] at g3; injection g3 with g3; subst g3
      rw [rowwise_unique (R := UnionErrors) (fun _ _ _ => unionErrors_unique) h4 g4]
    · exact absurd h3 (g3 _)
    · exact absurd g3 (h3 _)
    · rfl

end SX
