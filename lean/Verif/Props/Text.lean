import Verif.Proof.Text
import Verif.Props.Normalize

/-! # C04-C07: text types -/
namespace SX
open Spec

/-! ## C04: bool -/

theorem parseBool_core (text : String) (b : Bool) :
    parseBool text = .ok (.bool b) ↔ String.ofList (trimMatches trimSet text.toList) ∈ boolLexical b := by
  unfold parseBool
  split <;> rename_i h
  · rw [h]; cases b <;> simp [boolLexical]
  · rw [h]; cases b <;> simp [boolLexical]
  · rw [h]; cases b <;> simp [boolLexical]
  · rw [h]; cases b <;> simp [boolLexical]
  · rename_i _ h1 h2 h3
    cases b <;> simp only [boolLexical, List.mem_cons, List.not_mem_nil, or_false, reduceCtorEq, false_iff]
    · exact fun hc => hc.elim h3 h
    · exact fun hc => hc.elim h1 h2

theorem boolLexical_ends (b : Bool) (core : String) (h : core ∈ boolLexical b) :
    core.toList ≠ [] ∧ (∀ x, core.toList.head? = some x → isWs x = false) ∧
    (∀ x, core.toList.getLast? = some x → isWs x = false) := by
  cases b <;> simp [boolLexical] at h <;> rcases h with h | h <;> subst h <;> simp [isWs]

/-- **C04** (accepted texts).  A text is read as `b` exactly when it is one of the lexical
representations of `b` surrounded by XML white space. -/
theorem C04_bool_parse (text : String) (b : Bool) :
    TextTy.bool.parse text = .ok (.bool b) ↔
      ∃ core ∈ boolLexical b, Padded text.toList core.toList := by
  unfold TextTy.parse
  rw [parseBool_core]
  constructor
  · intro h
    refine ⟨_, h, ?_⟩
    rw [String.toList_ofList]
    exact trim_padded _
  · rintro ⟨core, h1, h2⟩
    obtain ⟨e1, e2, e3⟩ := boolLexical_ends b core h1
    rw [trim_of_padded _ _ h2 e1 e2 e3, String.ofList_toList]
    exact h1

/-- **C04** (everything else is an error showing the text). -/
theorem C04_bool_reject (text : String)
    (h : ∀ b, ∀ core ∈ boolLexical b, ¬ Padded text.toList core.toList) :
    TextTy.bool.parse text = .err (.invalidBool text) := by
  have h1 : ∀ b, TextTy.bool.parse text ≠ .ok (.bool b) := by
    intro b hb
    obtain ⟨c, hc, hp⟩ := (C04_bool_parse text b).mp hb
    exact h b c hc hp
  have ht := h1 true
  have hf := h1 false
  unfold TextTy.parse parseBool at ht hf ⊢
  split <;> simp_all

/-- **C04** (round trip with padding). -/
theorem C04_bool_roundtrip (b : Bool) (text out : String) (h : TextTy.bool.toText (.bool b) = some out)
    (hp : Padded text.toList out.toList) : TextTy.bool.parse text = .ok (.bool b) := by
  rw [C04_bool_parse]
  refine ⟨out, ?_, hp⟩
  simp only [TextTy.toText] at h
  cases b <;> simp at h <;> subst h <;> simp [boolLexical]

example : Padded "\t true\n".toList "true".toList := ⟨['\t', ' '], ['\n'], by decide⟩
example : TextTy.bool.parse "\t true\n" = .ok (.bool true) :=
  C04_bool_roundtrip true _ "true" rfl ⟨['\t', ' '], ['\n'], by decide⟩

/-! ## C05: integers -/

/-- **C05** (accepted texts).  A text is read as the number `n` exactly when it is an integer literal
denoting `n`, surrounded by XML white space, and `n` is in the range of the type. -/
theorem C05_int_parse (t : IntTy) (text : String) (v : TVal) :
    (TextTy.int t).parse text = .ok v ↔
      ∃ core n, Padded text.toList core ∧ IntLiteral t.signed core n ∧ inRange t.signed t.bits n ∧ v = .int n := by
  unfold TextTy.parse parseInt
  constructor
  · intro h
    split at h
    · rename_i n hn
      rw [intFromStr_iff] at hn
      cases h
      exact ⟨_, n, trim_padded _, hn.1, (range_iff t n).mp hn.2, rfl⟩
    · cases h
  · rintro ⟨core, n, h1, h2, h3, h4⟩
    obtain ⟨e1, e2, e3⟩ := intLiteral_ends _ _ _ h2
    rw [trim_of_padded _ _ h1 e1 e2 e3, (intFromStr_iff t core n).mpr ⟨h2, (range_iff t n).mpr h3⟩, h4]

/-- **C05** (any other text is an error, never a fault or a wrapped value). -/
theorem C05_int_reject (t : IntTy) (text : String)
    (h : ∀ core n, Padded text.toList core → IntLiteral t.signed core n → ¬ inRange t.signed t.bits n) :
    (TextTy.int t).parse text = .err .std := by
  have h1 : ∀ v, (TextTy.int t).parse text ≠ .ok v := by
    intro v hv
    obtain ⟨c, n, a1, a2, a3, _⟩ := (C05_int_parse t text v).mp hv
    exact h c n a1 a2 a3
  unfold TextTy.parse parseInt at h1 ⊢
  split
  · rename_i n hn
    rw [hn] at h1
    exact absurd rfl (h1 _)
  · rfl

/-- **C05** (round trip with padding). -/
theorem C05_int_roundtrip (t : IntTy) (n : Int) (hn : inRange t.signed t.bits n) (text out : String)
    (h : (TextTy.int t).toText (.int n) = some out) (hp : Padded text.toList out.toList) :
    (TextTy.int t).parse text = .ok (.int n) := by
  rw [C05_int_parse]
  simp only [TextTy.toText, Option.some.injEq] at h
  subst h
  exact ⟨_, n, hp, intToString_literal t n ((range_iff t n).mpr hn).1, hn, rfl⟩

/-- Concrete instance: the most negative `i128`, padded. -/
example : inRange true 128 (-(2 ^ 127)) := by simp [inRange]
example : (TextTy.int ⟨true, 8⟩).parse " -128\n" = .ok (.int (-128)) :=
  (C05_int_parse _ _ _).mpr ⟨"-128".toList, -128, ⟨[' '], ['\n'], by decide⟩,
    .minus ['1', '2', '8'] (by decide) (by unfold isDecDigit; decide) rfl, by simp [inRange], rfl⟩
example : (TextTy.int ⟨true, 8⟩).parse "128" = .err .std := by rfl
example : (TextTy.int ⟨false, 8⟩).parse "-1" = .err .std := by rfl

/-! ## C06: restriction enums -/

theorem matchKnown_spec (s : String) (vs : List (Option String)) (k : Nat) :
    (∀ i, matchKnown s vs k = some i → k ≤ i ∧ vs[i - k]? = some (some s) ∧
      ∀ j, j < i - k → vs[j]? ≠ some (some s)) ∧
    (matchKnown s vs k = none → some s ∉ vs) := by
  induction vs generalizing k with
  | nil => simp [matchKnown]
  | cons v vs ih =>
    obtain ⟨i1, i2⟩ := ih (k + 1)
    have step : ∀ i, matchKnown s vs (k + 1) = some i → v ≠ some s →
        k ≤ i ∧ (v :: vs)[i - k]? = some (some s) ∧ ∀ j, j < i - k → (v :: vs)[j]? ≠ some (some s) := by
      intro i hi hv
      obtain ⟨a1, a2, a3⟩ := i1 i hi
      have e : i - k = (i - (k + 1)) + 1 := by omega
      refine ⟨by omega, by rw [e, List.getElem?_cons_succ]; exact a2, ?_⟩
      intro j hj
      cases j with
      | zero => simpa using hv
      | succ j => rw [List.getElem?_cons_succ]; exact a3 j (by omega)
    cases v with
    | none =>
      simp only [matchKnown]
      refine ⟨fun i hi => step i hi (by simp), fun h => ?_⟩
      have := i2 h
      simp [this]
    | some t =>
      simp only [matchKnown]
      by_cases h : s = t
      · subst h; simp
      · rw [if_neg h]
        refine ⟨fun i hi => step i hi (by simp; exact fun h' => h h'.symm), fun h' => ?_⟩
        have := i2 h'
        simp [this, h]

/-- The text after the white space normalization declared for the type. -/
def Spec.normText (ws : WhiteSpace) (s : String) : String := String.ofList (normalized ws s.toList)

theorem parse_normalize {α} (ws : WhiteSpace) (s : String) (f : String → Res TErr α) :
    (Res.ofExcept (normalize s ws) : Res TErr String).bind f = f (normText ws s) := by
  rw [C01_normalize_spec]; rfl

/-- The result of parsing a restriction enum, from its declaration only: `variants` are the declared
texts in order (`none` for the unknown variant). -/
def Spec.RestrictionResult (name : String) (variants : List (Option String)) (t : String) :
    Res TErr TVal → Prop
  | .ok (.known i) => variants[i]? = some (some t) ∧ ∀ j, j < i → variants[j]? ≠ some (some t)
  | .ok (.unknown s) => some t ∉ variants ∧ none ∈ variants ∧ s = t
  | .err (.noSuchVariant n s) => some t ∉ variants ∧ none ∉ variants ∧ s = t ∧ n = name
  | _ => False

/-- **C06** (parsing).  The outcome is the declared variant, or the unknown variant holding the
normalized text, or an error. -/
theorem C06_restriction_parse (name : String) (ws : WhiteSpace) (variants : List (Option String)) (text : String) :
    RestrictionResult name variants (normText ws text)
      ((TextTy.restriction name ws variants).parse text) := by
  unfold TextTy.parse parseRestriction
  show RestrictionResult _ _ _ (Res.bind _ _)
  rw [parse_normalize]
  obtain ⟨h1, h2⟩ := matchKnown_spec (normText ws text) variants 0
  cases hm : matchKnown (normText ws text) variants 0 with
  | some i =>
    obtain ⟨_, a2, a3⟩ := h1 i hm
    simp only [RestrictionResult]
    exact ⟨by simpa using a2, fun j hj => a3 j (by omega)⟩
  | none =>
    simp only
    by_cases hu : none ∈ variants
    · rw [if_pos (by simpa using hu)]
      exact ⟨h2 hm, hu, rfl⟩
    · rw [if_neg (by simpa using hu)]
      exact ⟨h2 hm, hu, rfl, rfl⟩

/-- Declared texts are pairwise distinct. -/
def Spec.DistinctTexts (variants : List (Option String)) : Prop :=
  ∀ (i j : Nat) (t : String), variants[i]? = some (some t) → variants[j]? = some (some t) → i = j

/-- **C06** (round trip of known variants). -/
theorem C06_restriction_roundtrip_known (name : String) (ws : WhiteSpace) (variants : List (Option String))
    (hd : DistinctTexts variants) (i : Nat) (out : String)
    (h : (TextTy.restriction name ws variants).toText (.known i) = some out)
    (hn : normText ws out = out) :
    (TextTy.restriction name ws variants).parse out = .ok (.known i) := by
  have hv : variants[i]? = some (some out) := by
    simp only [TextTy.toText] at h
    split at h
    · rename_i t ht; rw [ht]; simp at h; rw [h]
    · cases h
  have hp := C06_restriction_parse name ws variants out
  rw [hn] at hp
  have hmem : some out ∈ variants := List.mem_of_getElem? hv
  cases hr : (TextTy.restriction name ws variants).parse out with
  | fault f => rw [hr] at hp; exact hp.elim
  | err e =>
    rw [hr] at hp
    cases e <;> simp only [RestrictionResult] at hp
    exact absurd hmem hp.1
  | ok v =>
    rw [hr] at hp
    cases v <;> simp only [RestrictionResult] at hp
    · rename_i k
      rw [hd k i out hp.1 hv]
    · exact absurd hmem hp.1

/-- **C06** (round trip of unknown values): exactly for those that are not a declared text. -/
theorem C06_restriction_roundtrip_unknown (name : String) (ws : WhiteSpace) (variants : List (Option String))
    (s out : String) (h : (TextTy.restriction name ws variants).toText (.unknown s) = some out)
    (hn : normText ws s = s) :
    (TextTy.restriction name ws variants).parse out = .ok (.unknown s) ↔ some s ∉ variants := by
  have hs : none ∈ variants ∧ out = s := by
    simp only [TextTy.toText] at h
    split at h
    · rename_i hc; simp at h; exact ⟨by simpa using hc, h.symm⟩
    · cases h
  obtain ⟨hu, rfl⟩ := hs
  have hp := C06_restriction_parse name ws variants out
  rw [hn] at hp
  constructor
  · intro hr
    rw [hr] at hp
    exact hp.1
  · intro hnot
    cases hr : (TextTy.restriction name ws variants).parse out with
    | fault f => rw [hr] at hp; exact hp.elim
    | err e =>
      rw [hr] at hp
      cases e <;> simp only [RestrictionResult] at hp
      exact absurd hu hp.2.1
    | ok v =>
      rw [hr] at hp
      cases v <;> simp only [RestrictionResult] at hp
      · exact absurd (List.mem_of_getElem? hp.1) hnot
      · rw [hp.2.2]

/-- Concrete instance, from the test suite's enums. -/
example : DistinctTexts [some "Foo", some "Bar", none, some "BAZ"] := by
  intro i j t h1 h2
  match i, j with
  | 0, 0 | 1, 1 | 3, 3 => rfl
  | 0, 1 | 0, 3 | 1, 0 | 1, 3 | 3, 0 | 3, 1 => simp at h1 h2; subst h1; simp at h2
  | 2, _ => simp at h1
  | _, 2 => simp at h2
  | i + 4, _ => simp at h1
  | _, j + 4 => simp at h2
example : (TextTy.restriction "C" .collapse [some "Foo", none, some "BAZ"]).parse "\n BAZ " = .ok (.known 2) := by
  have h : normText .collapse "\n BAZ " = "BAZ" := by
    simp [normText, normalized, collapseWs, words_cons_ws, words_cons_not, words_nil, isWs, List.intercalate]
  have := C06_restriction_parse "C" .collapse [some "Foo", none, some "BAZ"] "\n BAZ "
  rw [h] at this
  simp only [TextTy.parse, parseRestriction]
  show Res.bind _ _ = _
  rw [parse_normalize, h]; rfl

/-! ## C07: union enums -/

/-- No text type ever faults. -/
theorem parse_no_fault (t : TextTy) (s : String) (f : Fault) : t.parse s ≠ .fault f := by
  have main : ∀ n, ∀ t : TextTy, sizeOf t ≤ n → ∀ s, t.parse s ≠ .fault f := by
    intro n
    induction n with
    | zero => intro t ht; cases t <;> simp at ht <;> omega
    | succ n ih =>
      intro t ht s
      cases t with
      | bool => unfold TextTy.parse parseBool; split <;> simp
      | int t => unfold TextTy.parse parseInt; split <;> simp
      | float g _ => unfold TextTy.parse; split <;> simp
      | string => unfold TextTy.parse; simp
      | std ws g _ => unfold TextTy.parse; rw [parse_normalize]; split <;> simp
      | restriction name ws vs =>
        intro h
        have := C06_restriction_parse name ws vs s
        rw [h] at this; exact this
      | union name ws vs =>
        unfold TextTy.parse; rw [parse_normalize]
        have key : ∀ (vs : List TextTy) (i : Nat) (es : List TErr), sizeOf vs ≤ n →
            TextTy.parseVariants vs name (normText ws s) i es ≠ .fault f := by
          intro vs
          induction vs with
          | nil => intro i es _; simp [TextTy.parseVariants]
          | cons v vs ihv =>
            intro i es hsz
            simp at hsz
            unfold TextTy.parseVariants
            split
            · simp
            · exact ihv _ _ (by omega)
            · rename_i g hg
              have := ih v (by omega) (normText ws s)
              intro he; cases he; exact this hg
        refine key vs 0 [] ?_
        simp at ht; omega
  exact main _ t (Nat.le_refl _) s

theorem parseVariants_spec (name text : String) (vs : List TextTy) (k : Nat) (es : List TErr) :
    (∀ r, TextTy.parseVariants vs name text k es = .ok r ↔
      ∃ i v t, r = .variant (k + i) v ∧ vs[i]? = some t ∧ t.parse text = .ok v ∧
        ∀ j t', j < i → vs[j]? = some t' → ∃ e, t'.parse text = .err e) ∧
    (∀ e, TextTy.parseVariants vs name text k es = .err e ↔
      ∃ es', e = .union name (es ++ es') ∧ vs.map (fun t => t.parse text) = es'.map .err) := by
  induction vs generalizing k es with
  | nil =>
    refine ⟨by simp [TextTy.parseVariants], ?_⟩
    intro e
    simp only [TextTy.parseVariants, List.map_nil]
    constructor
    · intro h; cases h; exact ⟨[], by simp, rfl⟩
    · rintro ⟨es', h1, h2⟩
      have : es' = [] := by simpa using h2.symm
      subst this; rw [h1]; simp
  | cons t ts ih =>
    unfold TextTy.parseVariants
    cases ht : t.parse text with
    | fault f => exact absurd ht (parse_no_fault t text f)
    | ok r0 =>
      refine ⟨?_, ?_⟩
      · intro r
        simp only
        constructor
        · intro h; cases h
          exact ⟨0, r0, t, by simp, rfl, ht, by omega⟩
        · rintro ⟨i, v, t', h1, h2, h3, h4⟩
          cases i with
          | zero =>
            simp at h2; subst h2
            rw [ht] at h3; cases h3; rw [h1]; rfl
          | succ i =>
            obtain ⟨e, he⟩ := h4 0 t (by omega) rfl
            rw [ht] at he; cases he
      · intro e
        constructor
        · intro h; cases h
        · rintro ⟨es', _, h2⟩
          cases es' with
          | nil => simp at h2
          | cons a b => simp [ht] at h2
    | err e0 =>
      obtain ⟨i1, i2⟩ := ih (k + 1) (es ++ [e0])
      refine ⟨?_, ?_⟩
      · intro r
        simp only
        rw [i1]
        constructor
        · rintro ⟨i, v, t', h1, h2, h3, h4⟩
          refine ⟨i + 1, v, t', by rw [h1]; congr 1; omega, by simpa using h2, h3, ?_⟩
          intro j t'' hj hj2
          cases j with
          | zero => simp at hj2; subst hj2; exact ⟨e0, ht⟩
          | succ j => exact h4 j t'' (by omega) (by simpa using hj2)
        · rintro ⟨i, v, t', h1, h2, h3, h4⟩
          cases i with
          | zero => simp at h2; subst h2; rw [ht] at h3; cases h3
          | succ i =>
            refine ⟨i, v, t', by rw [h1]; congr 1; omega, by simpa using h2, h3, ?_⟩
            intro j t'' hj hj2
            exact h4 (j + 1) t'' (by omega) (by simpa using hj2)
      · intro e
        simp only
        rw [i2]
        constructor
        · rintro ⟨es', h1, h2⟩
          exact ⟨e0 :: es', by simpa using h1, by simp [ht, h2]⟩
        · rintro ⟨es', h1, h2⟩
          cases es' with
          | nil => simp at h2
          | cons a b =>
            simp [ht] at h2
            refine ⟨b, ?_, h2.2⟩
            rw [h1, h2.1]; simp

/-- **C07** (success): a union is read as its first variant that accepts the normalized text. -/
theorem C07_union_parse (name : String) (ws : WhiteSpace) (vs : List TextTy) (text : String) (r : TVal) :
    (TextTy.union name ws vs).parse text = .ok r ↔
      ∃ i v t, r = .variant i v ∧ vs[i]? = some t ∧ t.parse (normText ws text) = .ok v ∧
        ∀ j t', j < i → vs[j]? = some t' → ∃ e, t'.parse (normText ws text) = .err e := by
  rw [TextTy.parse, parse_normalize, (parseVariants_spec _ _ _ _ _).1]
  simp

/-- **C07** (failure): a union is rejected exactly when every variant rejects the text, and the error
lists all their errors in order. -/
theorem C07_union_reject (name : String) (ws : WhiteSpace) (vs : List TextTy) (text : String) (e : TErr) :
    (TextTy.union name ws vs).parse text = .err e ↔
      ∃ es, e = .union name es ∧ vs.map (fun t => t.parse (normText ws text)) = es.map .err := by
  rw [TextTy.parse, parse_normalize, (parseVariants_spec _ _ _ _ _).2]
  simp

theorem toTextAt_eq (vs : List TextTy) (i : Nat) (v : TVal) :
    TextTy.toTextAt vs i v = (vs[i]?).bind (fun t => t.toText v) := by
  induction vs generalizing i with
  | nil => simp [TextTy.toTextAt]
  | cons t ts ih => cases i <;> simp [TextTy.toTextAt, ih]

/-- **C07** (round trip): when variant `i`'s own type reads its (normalized) text back, the union
reads the text back as the same value exactly when no earlier variant accepts it. -/
theorem C07_union_roundtrip (name : String) (ws : WhiteSpace) (vs : List TextTy) (i : Nat) (v : TVal)
    (t : TextTy) (out : String) (ht : vs[i]? = some t)
    (h : (TextTy.union name ws vs).toText (.variant i v) = some out)
    (hrt : ∀ s, t.toText v = some s → t.parse (normText ws s) = .ok v) :
    (TextTy.union name ws vs).parse out = .ok (.variant i v) ↔
      ∀ j t', j < i → vs[j]? = some t' → ∃ e, t'.parse (normText ws out) = .err e := by
  simp only [TextTy.toText, toTextAt_eq, ht, Option.bind_some] at h
  have hp := hrt out h
  rw [C07_union_parse]
  constructor
  · rintro ⟨i', v', t', h1, h2, h3, h4⟩
    cases h1
    exact h4
  · intro h4
    exact ⟨i, v, t, rfl, ht, hp, h4⟩

/-- Concrete instances: the test suite's union, and a value that does *not* round-trip. -/
def exUnion : TextTy := .union "MyUnion" .preserve [.int ⟨true, 32⟩, .bool, .string]
example : exUnion.parse "true" = .ok (.variant 1 (.bool true)) := by
  rw [exUnion, C07_union_parse]
  refine ⟨1, .bool true, .bool, rfl, rfl, by rfl, ?_⟩
  intro j t' hj ht
  have : j = 0 := by omega
  subst this
  simp at ht; subst ht
  exact ⟨.std, by rfl⟩
example : exUnion.parse "12" ≠ .ok (.variant 2 (.str "12")) := by
  rw [exUnion, ne_eq, C07_union_roundtrip (t := .string) (h := rfl) (ht := rfl)]
  · intro h
    obtain ⟨e, he⟩ := h 0 (.int ⟨true, 32⟩) (by omega) rfl
    revert he
    have : (TextTy.int ⟨true, 32⟩).parse (normText .preserve "12") = .ok (.int 12) := by rfl
    rw [this]; intro h; cases h
  · intro s hs; simp [TextTy.toText] at hs; subst hs; rfl

end SX
