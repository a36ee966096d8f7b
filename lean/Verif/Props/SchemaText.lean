import Verif.Spec.SchemaText
import Verif.Props.Reread

/-
C62: text types and the simple types of XML Schema.
-/
namespace SX
open Spec Spec.Schema

theorem facet_eq (ws : WhiteSpace) (s : List Char) : facet ws s = normalized ws s := by cases ws <;> rfl

theorem facet_text (ws : WhiteSpace) (s v : String) : facet ws s.toList = v.toList ↔ normText ws s = v := by
  rw [facet_eq, normText]
  constructor
  · intro h
    rw [h, String.ofList_toList]
  · rintro rfl
    rw [String.toList_ofList]

theorem words_pre (a b : List Char) (h : ∀ c ∈ a, isWs c = true) : words isWs (a ++ b) = words isWs b := by
  induction a with
  | nil => rfl
  | cons c a ih =>
    rw [List.cons_append, words_cons_ws _ _ _ (h c (by simp)), ih fun c hc => h c (by simp [hc])]

theorem words_empty (l : List Char) (h : words isWs l = []) : ∀ c ∈ l, isWs c = true := by
  induction l with
  | nil => simp
  | cons c r ih =>
    by_cases hc : isWs c = true
    · rw [words_cons_ws _ _ _ hc] at h
      intro x hx
      rcases List.mem_cons.mp hx with rfl | hx
      · exact hc
      · exact ih h x hx
    · rw [words_cons_not _ _ _ (by simpa using hc)] at h
      cases h

/-- Collapsing gives a single word exactly if the text is that word with white space around it. -/
theorem collapse_padded (s core : List Char) (hne : core ≠ []) (hw : ∀ c ∈ core, isWs c = false) :
    facet .collapse s = core ↔ Padded s core := by
  have h1 : words isWs core = [core] := by
    have := words_single core hne hw [] (by simp)
    rwa [List.append_nil, words_nil] at this
  constructor
  · intro h
    have hs : words isWs s = [core] := by
      rw [← h1, ← h]
      show _ = words isWs (List.intercalate [' '] (words isWs s))
      rw [words_intercalate _ (collapse_words_noWs s)]
    rw [words_eq] at hs
    cases hd : s.dropWhile isWs with
    | nil => rw [hd] at hs; cases hs
    | cons c r =>
      rw [hd] at hs
      simp only [List.cons.injEq] at hs
      refine ⟨s.takeWhile isWs, r.dropWhile (fun x => !isWs x), ?_, ?_, words_empty _ hs.2⟩
      · rw [← hs.1, List.append_assoc, List.cons_append, List.takeWhile_append_dropWhile, ← hd, List.takeWhile_append_dropWhile]
      · intro x hx
        have := (List.all_takeWhile (l := s) (p := isWs))
        rw [List.all_eq_true] at this
        exact this x hx
  · rintro ⟨pre, post, rfl, hp, hq⟩
    show List.intercalate [' '] (words isWs (pre ++ core ++ post)) = core
    rw [words_append_ws _ _ _ hq, words_pre _ _ hp, h1]
    simp

theorem boolLexical_noWs (b : Bool) (core : String) (h : core ∈ boolLexical b) : core.toList ≠ [] ∧ ∀ c ∈ core.toList, isWs c = false := by
  cases b <;> simp [boolLexical] at h <;> rcases h with h | h <;> subst h <;> decide

theorem intLiteral_noWs {sg : Bool} {s : List Char} {n : Int} (h : IntLiteral sg s n) : s ≠ [] ∧ ∀ c ∈ s, isWs c = false := by
  cases h with
  | plain _ ne h => exact ⟨ne, fun c hc => decDigit_not_ws c (h c hc)⟩
  | plus ds ne h =>
    refine ⟨by simp, fun c hc => ?_⟩
    rcases List.mem_cons.mp hc with rfl | hc
    · rfl
    · exact decDigit_not_ws c (h c hc)
  | minus ds ne h =>
    refine ⟨by simp, fun c hc => ?_⟩
    rcases List.mem_cons.mp hc with rfl | hc
    · rfl
    · exact decDigit_not_ws c (h c hc)

theorem lexical_restriction (name : String) (ws : WhiteSpace) (vs : List (Option String)) (s : String) (v : TVal)
    (h : (TextTy.restriction name ws vs).parse s = .ok v) :
    (some (normText ws s) ∈ vs ∨ none ∈ vs) ∧ (TextTy.restriction name ws vs).toText v = some (normText ws s) := by
  have hp := C06_restriction_parse name ws vs s
  rw [h] at hp
  cases v <;> simp only [RestrictionResult] at hp
  · refine ⟨.inl (List.mem_of_getElem? hp.1), ?_⟩
    simp [TextTy.toText, hp.1]
  · refine ⟨.inr hp.2.1, ?_⟩
    simp [TextTy.toText, hp.2.1, hp.2.2]

theorem restriction_ok (name : String) (ws : WhiteSpace) (vs : List (Option String)) (s : String)
    (h : some (normText ws s) ∈ vs ∨ none ∈ vs) : ∃ v, (TextTy.restriction name ws vs).parse s = .ok v := by
  have hp := C06_restriction_parse name ws vs s
  cases hr : (TextTy.restriction name ws vs).parse s with
  | ok v => exact ⟨v, rfl⟩
  | fault f => rw [hr] at hp; exact hp.elim
  | err e =>
    rw [hr] at hp
    cases e <;> simp only [RestrictionResult] at hp
    exact (h.elim hp.1 hp.2.1).elim

theorem simple_for (m : SimpleTy) (t : TextTy) (h : SimpleFor m t) :
    ∀ s, ((∃ v, t.parse s = .ok v) ↔ Lexical m s) ∧ ∀ v, t.parse s = .ok v → ∃ s', t.toText v = some s' ∧ Lexical m s' := by
  induction h with
  | boolean =>
    intro s
    have key : ∀ s b, TextTy.bool.parse s = .ok (.bool b) → Lexical .boolean s := by
      intro s b hb
      obtain ⟨core, h1, h2⟩ := (C04_bool_parse s b).mp hb
      obtain ⟨n1, n2⟩ := boolLexical_noWs b core h1
      exact .boolean b h1 ((collapse_padded _ _ n1 n2).mpr h2)
    have isb : ∀ v, TextTy.bool.parse s = .ok v → ∃ b, v = .bool b := by
      intro v h
      unfold TextTy.parse parseBool at h
      split at h <;> first | (cases h; done) | exact ⟨_, (Res.ok.inj h).symm⟩
    refine ⟨⟨?_, ?_⟩, ?_⟩
    · rintro ⟨v, hv⟩
      obtain ⟨b, rfl⟩ := isb v hv
      exact key s b hv
    · rintro (⟨b, h1, h2⟩)
      rename_i core
      obtain ⟨n1, n2⟩ := boolLexical_noWs b core h1
      exact ⟨.bool b, (C04_bool_parse s b).mpr ⟨core, h1, (collapse_padded _ _ n1 n2).mp h2⟩⟩
    · intro v hv
      obtain ⟨b, rfl⟩ := isb v hv
      exact ⟨_, rfl, key _ b (C04_bool_roundtrip b _ _ rfl ⟨[], [], by simp⟩)⟩
  | integer t =>
    intro s
    have key : ∀ s v, (TextTy.int t).parse s = .ok v → Lexical (.integer t.signed t.bits) s := by
      intro s v hv
      obtain ⟨core, n, h1, h2, h3, _⟩ := (C05_int_parse t s v).mp hv
      obtain ⟨n1, n2⟩ := intLiteral_noWs h2
      rw [← (collapse_padded _ _ n1 n2).mpr h1] at h2
      exact .integer n h2 h3
    refine ⟨⟨fun ⟨v, hv⟩ => key s v hv, ?_⟩, ?_⟩
    · rintro (_ | ⟨n, h1, h2⟩)
      obtain ⟨n1, n2⟩ := intLiteral_noWs h1
      exact ⟨.int n, (C05_int_parse t s _).mpr ⟨_, n, (collapse_padded _ _ n1 n2).mp rfl, h1, h2, rfl⟩⟩
    · intro v hv
      obtain ⟨core, n, h1, h2, h3, rfl⟩ := (C05_int_parse t s v).mp hv
      exact ⟨_, rfl, key _ _ (C05_int_roundtrip t n h3 _ _ rfl ⟨[], [], by simp⟩)⟩
  | string => exact fun s => ⟨⟨fun _ => .string, fun _ => ⟨_, rfl⟩⟩, fun v hv => by cases hv; exact ⟨_, rfl, .string⟩⟩
  | restriction name ws values =>
    intro s
    have mem : ∀ x, (some x ∈ values.map some ∨ none ∈ values.map some) ↔ x ∈ values := by simp
    refine ⟨⟨?_, ?_⟩, ?_⟩
    · rintro ⟨v, hv⟩
      exact .enumeration ((mem _).mp (lexical_restriction _ _ _ _ _ hv).1) ((facet_text _ _ _).mpr rfl)
    · rintro (_ | _ | _ | ⟨h1, h2⟩)
      rw [facet_text] at h2
      subst h2
      exact restriction_ok _ _ _ _ ((mem _).mpr h1)
    · intro v hv
      obtain ⟨h1, h2⟩ := lexical_restriction _ _ _ _ _ hv
      exact ⟨_, h2, .enumeration ((mem _).mp h1) ((facet_text _ _ _).mpr (normText_idem ws s))⟩
  | unknown name ws a b =>
    have str : ∀ s, Lexical (.union [.enumeration ws (a ++ b), .string ws]) s := fun s => .union (m := .string ws) (by simp) .string
    intro s
    refine ⟨⟨fun _ => str s, fun _ => restriction_ok _ _ _ _ (.inr (by simp))⟩, fun v hv => ?_⟩
    exact ⟨_, (lexical_restriction _ _ _ _ _ hv).2, str _⟩
  | union name hl h ih =>
    rename_i ms ts
    intro s
    have hn : normText .preserve s = s := by simp [normText, normalized]
    have fwd : ∀ v, (TextTy.union name .preserve ts).parse s = .ok v →
        Lexical (.union ms) s ∧ ∃ s', (TextTy.union name .preserve ts).toText v = some s' ∧ Lexical (.union ms) s' := by
      intro v hv
      obtain ⟨i, w, t, rfl, ht, hp, _⟩ := (C07_union_parse _ _ _ _ _).mp hv
      rw [hn] at hp
      have hi : i < ms.length := by
        rw [hl]
        exact (List.getElem?_eq_some_iff.mp ht).1
      have hm : ms[i]? = some ms[i] := List.getElem?_eq_getElem hi
      obtain ⟨i1, i2⟩ := ih i _ _ hm ht s
      obtain ⟨s', j1, j2⟩ := i2 w hp
      refine ⟨.union (List.getElem_mem hi) (i1.mp ⟨w, hp⟩), s', ?_, .union (List.getElem_mem hi) j2⟩
      simp only [TextTy.toText, toTextAt_eq, ht, Option.bind_some]
      exact j1
    refine ⟨⟨fun ⟨v, hv⟩ => (fwd v hv).1, ?_⟩, fun v hv => (fwd v hv).2⟩
    rintro (_ | _ | _ | _ | ⟨hm, hx⟩)
    obtain ⟨i, hi, rfl⟩ := List.mem_iff_getElem.mp hm
    have ht : ts[i]? = some (ts[i]'(hl ▸ hi)) := List.getElem?_eq_getElem _
    obtain ⟨w, hw⟩ := (ih i _ _ (List.getElem?_eq_getElem hi) ht s).1.mpr hx
    cases hr : (TextTy.union name .preserve ts).parse s with
    | ok v => exact ⟨v, rfl⟩
    | fault f => exact absurd hr (parse_no_fault _ _ f)
    | err e =>
      obtain ⟨es, _, he⟩ := (C07_union_reject _ _ _ _ _).mp hr
      rw [hn] at he
      have := congrArg (·[i]?) he
      simp only [List.getElem?_map, ht, Option.map_some, hw] at this
      cases hes : es[i]? with
      | none => rw [hes] at this; cases this
      | some x => rw [hes] at this; cases this

/-- C62, text: a text type accepts exactly the texts that the simple type allows, … -/
theorem C62_text (m : SimpleTy) (t : TextTy) (h : SimpleFor m t) (s : String) : (∃ v, t.parse s = .ok v) ↔ Lexical m s :=
  (simple_for m t h s).1

/-- … and the value of an allowed text is written as a text that is allowed: the condition on simple types in C62. -/
theorem C62_textFor (m : SimpleTy) (t : TextTy) (h : SimpleFor m t) : TextFor (Lexical m) t := by
  intro s hs
  obtain ⟨h1, h2⟩ := simple_for m t h s
  obtain ⟨v, hv⟩ := h1.mpr hs
  obtain ⟨s', i1, i2⟩ := h2 v hv
  exact ⟨v, s', hv, i1, i2⟩

/-- The types of the documentation (`lib.rs:101-182`) and a union of types. -/
example : SimpleFor (.enumeration .preserve ["small", "medium", "large"]) (.restriction "Size" .preserve [some "small", some "medium", some "large"]) :=
  .restriction _ _ ["small", "medium", "large"]
example : SimpleFor (.union [.enumeration .collapse ["small", "medium", "large"], .string .collapse])
    (.restriction "Size" .collapse [some "small", some "medium", some "large", none]) :=
  .unknown _ _ ["small", "medium", "large"] []
theorem ExX.simple_union : SimpleFor (.union [.integer true 32, .boolean]) (.union "U" .preserve [.int ⟨true, 32⟩, .bool]) := by
  refine .union _ rfl fun i m t hm ht => ?_
  rcases i with _ | _ | i <;> simp at hm ht
  · subst hm; subst ht; exact .integer ⟨true, 32⟩
  · subst hm; subst ht; exact .boolean
example : Lexical (.union [.integer true 32, .boolean]) " 1\n" ∧ ¬ Lexical (.union [.integer true 32, .boolean]) "1 1" := by
  refine ⟨(C62_text _ _ ExX.simple_union _).mp ⟨.variant 0 (.int 1), rfl⟩, fun h => ?_⟩
  obtain ⟨v, hv⟩ := (C62_text _ _ ExX.simple_union _).mpr h
  exact absurd (show TextTy.parse (.union "U" .preserve [.int ⟨true, 32⟩, .bool]) "1 1" = .err (.union "U" [.std, .invalidBool "1 1"]) from rfl)
    (by rw [hv]; simp)

end SX
