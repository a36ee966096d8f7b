import Verif.Spec.WholeText

namespace SX.Gen
open SX.Spec.Gen SX.Spec

/-! ### A declaration in order has one description -/

theorem wsIs_unique {items : List NMeta} {a b : WhiteSpace} (ha : WsIs items a) (hb : WsIs items b) : a = b := by
  have no : ∀ {x}, NoneOf "whitespace" items → ¬ LastOf "whitespace" items x := by
    rintro x h ⟨p, q, hpq, _⟩
    exact h x (by rw [hpq]; simp)
  rcases ha with ⟨ha, rfl⟩ | ⟨ha, rfl⟩ | ⟨ha, rfl⟩ | ⟨ha, rfl⟩ <;> rcases hb with ⟨hb, rfl⟩ | ⟨hb, rfl⟩ | ⟨hb, rfl⟩ | ⟨hb, rfl⟩ <;>
    first
    | rfl
    | exact absurd hb (no ha)
    | exact absurd ha (no hb)
    | (have := lastOf_unique ha hb; simp at this)

theorem mode_unique {attrs : List Attr} {m m' : String} (h : TextOkAttrs attrs m) (h' : kv "mode" m' ∈ attrItems attrs) : m' = m := by
  rcases h.understood _ h' with h | ⟨w, _, h⟩
  · simpa [kv] using h
  · simp [kv] at h

theorem restrictionTable_unique {vs : List DVariant} {a b : List (Option String)} (ha : Rowwise RestrictionIs vs a)
    (hb : Rowwise RestrictionIs vs b) : a = b := by
  apply List.ext_getElem?
  intro i
  rcases ha.get i with ⟨h1, h2⟩ | ⟨v, x, h1, h2, hr⟩
  · rcases hb.get i with ⟨h3, h4⟩ | ⟨w, y, h3, h4, hr'⟩
    · rw [h2, h4]
    · rw [h1] at h3; cases h3
  · rcases hb.get i with ⟨h3, h4⟩ | ⟨w, y, h3, h4, hr'⟩
    · rw [h1] at h3; cases h3
    · rw [h1] at h3
      cases h3
      rw [h2, h4]
      cases y with
      | none =>
        cases x with
        | none => rfl
        | some t =>
          have := (restrictionIs_text hr' t).mpr ((restrictionIs_text hr t).mp rfl)
          cases this
      | some t => rw [(restrictionIs_text hr t).mpr ((restrictionIs_text hr' t).mp rfl)]

theorem textDescribes_unique {d : Decl} {t t' : TextDescribed} (hok : TextDeclOk d) (h : TextDescribes d t) (h' : TextDescribes d t') : t = t' := by
  have hm : ∃ m, TextOkAttrs d.attrs m := by
    rcases hok with h | h | h
    · exact ⟨_, h⟩
    · exact ⟨_, h.1⟩
    · exact ⟨_, h.1⟩
  obtain ⟨m, hm⟩ := hm
  have two : ∀ {a b}, kv "mode" a ∈ attrItems d.attrs → kv "mode" b ∈ attrItems d.attrs → a = b := fun ha hb =>
    (mode_unique hm ha).trans (mode_unique hm hb).symm
  cases t with
  | std ws =>
    cases t' with
    | std ws' => rw [wsIs_unique h.2 h'.2]
    | restriction ws' l => exact absurd (two h.1 h'.1) (by decide)
    | union ws' l => exact absurd (two h.1 h'.1) (by decide)
  | restriction ws l =>
    cases t' with
    | std ws' => exact absurd (two h.1 h'.1) (by decide)
    | restriction ws' l' =>
      obtain ⟨_, hw, vs, hv, hr⟩ := h
      obtain ⟨_, hw', vs', hv', hr'⟩ := h'
      rw [hv] at hv'
      cases hv'
      rw [wsIs_unique hw hw', restrictionTable_unique hr hr']
    | union ws' l => exact absurd (two h.1 h'.1) (by decide)
  | union ws l =>
    cases t' with
    | std ws' => exact absurd (two h.1 h'.1) (by decide)
    | restriction ws' l => exact absurd (two h.1 h'.1) (by decide)
    | union ws' l' =>
      obtain ⟨_, hw, vs, hv, rfl⟩ := h
      obtain ⟨_, hw', vs', hv', rfl⟩ := h'
      rw [hv] at hv'
      cases hv'
      rw [wsIs_unique hw hw']

/-- The variants of a union have one field. -/
theorem union_fields {d : Decl} {ws : WhiteSpace} {l : List Nat} (hok : TextDeclOk d) (h : TextDescribes d (.union ws l)) :
    ∀ v ∈ variantsOf d, v.fields = .unnamed 1 := by
  intro v hv
  rcases hok with hk | ⟨hk, _⟩ | ⟨hk, vs, hvs, hf⟩
  · exact absurd (mode_unique hk h.1) (by decide)
  · exact absurd (mode_unique hk h.1) (by decide)
  · have : variantsOf d = vs := by unfold variantsOf; rw [hvs]
    exact (hf v (this ▸ hv)).2.2

/-! ### What the macros emit -/

theorem acceptedParse_code {c : TextCrate} {code : TextEmitted} (h : AcceptedParse c code) {n : String} {d : Decl} (hd : c.decl n = some d) :
    TextDeclOk d ∧ ∃ t, TextDescribes d t ∧ code.parse n = parseCode d.ident (GText.ofDescribed (c.fieldTy n) (variantsOf d) t) := by
  have h1 := h n d hd
  rw [C63_derive] at h1
  simp only [deriveParseText, returns_pushAll, reports_pushAll, returns, reports, List.append_nil, End.done.injEq, Expansion.mk.injEq] at h1
  obtain ⟨he, ho⟩ := h1
  obtain ⟨t, ht, htd⟩ := (describeText_spec d).2 he
  refine ⟨(describeText_spec d).1.mp he, t, htd, ?_⟩
  rw [ht] at ho
  simp only [Option.map_some, Option.some.injEq] at ho
  exact ho.symm

theorem acceptedToText_code {c : TextCrate} {code : TextEmitted} (h : AcceptedToText c code) {n : String} {d : Decl} (hd : c.decl n = some d) :
    TextDeclOk d ∧ ∃ t, TextDescribes d t ∧ code.toText n = toTextCode (GText.ofDescribed (c.fieldTy n) (variantsOf d) t) := by
  have h1 := h n d hd
  rw [C63_derive] at h1
  simp only [deriveToText, returns_pushAll, reports_pushAll, returns, reports, List.append_nil, End.done.injEq, Expansion.mk.injEq] at h1
  obtain ⟨he, ho⟩ := h1
  obtain ⟨t, ht, htd⟩ := (describeText_spec d).2 he
  refine ⟨(describeText_spec d).1.mp he, t, htd, ?_⟩
  rw [ht] at ho
  simp only [Option.map_some, Option.some.injEq] at ho
  exact ho.symm

/-! ### Only the implementations for the types of fields matter -/

theorem runAttempts_congr {p q : String → String → Res TErr TVal} (ident text : String) : ∀ (l : List (String × String)) (errors : List TErr),
    (∀ a ∈ l, ∀ text, p a.2 text = q a.2 text) → runAttempts p ident text l errors = runAttempts q ident text l errors
  | [], _, _ => rfl
  | (v, ty) :: l, errors, h => by
    have ih := fun errors => runAttempts_congr ident text l errors fun a ha => h a (List.mem_cons_of_mem _ ha)
    have h0 := h (v, ty) List.mem_cons_self text
    simp only at h0
    simp only [runAttempts, h0]
    cases q ty text <;> simp [ih]

theorem parseRun_congr {p q : String → String → Res TErr TVal} (d : Decl) (ty : String → String) (t : TextDescribed) (fromStr : String → Option Nat)
    (text : String) (h : TextDescribes d t) (hc : (∃ ws l, t = .union ws l) → ∀ v ∈ variantsOf d, ∀ text, p (ty v.ident) text = q (ty v.ident) text) :
    (parseCode d.ident (GText.ofDescribed ty (variantsOf d) t)).run p fromStr text =
      (parseCode d.ident (GText.ofDescribed ty (variantsOf d) t)).run q fromStr text := by
  cases t with
  | std ws => rfl
  | restriction ws l => rfl
  | union ws l =>
    have hl : l = List.range (variantsOf d).length := by
      obtain ⟨_, _, vs, hvs, rfl⟩ := h
      unfold variantsOf; rw [hvs]
    subst hl
    simp only [GText.ofDescribed, unionIdents_all, parseCode, ParseCode.run]
    congr 1
    funext text
    refine runAttempts_congr d.ident text _ [] ?_
    intro a ha text
    obtain ⟨v, hv, rfl⟩ := List.mem_map.mp ha
    exact hc ⟨_, _, rfl⟩ v hv text

/-! ### Values -/

theorem declVariants_variantsOf (d : Decl) : declVariants d = variantsOf d := rfl

theorem idxOf_getElem {l : List String} (hn : l.Nodup) {i : Nat} {s : String} (h : l[i]? = some s) : l.idxOf s = i := by
  obtain ⟨hi, rfl⟩ := List.getElem?_eq_some_iff.mp h
  exact hn.idxOf_getElem i hi

/-- Values of a described type. -/
def ValueOf (d : Decl) : TextDescribed → TVal → Prop
  | .std _, .opaque _ => True
  | .restriction _ _, .known i => i < (variantsOf d).length
  | .restriction _ _, .unknown _ => True
  | .union _ _, .variant i _ => i < (variantsOf d).length
  | _, _ => False

theorem tvalOf_textValue {d : Decl} (hn : ((variantsOf d).map fun v => v.ident).Nodup) (t : TextDescribed) (v : TVal) (hv : ValueOf d t v) :
    tvalOf d (textValue (variantsOf d) t v) = v := by
  have key : ∀ i, i < (variantsOf d).length →
      ((variantsOf d).map fun v => v.ident).idxOf ((((variantsOf d).map fun v => v.ident)[i]?).getD "") = i := by
    intro i hi
    have he : ((variantsOf d).map fun v => v.ident)[i]? = some (((variantsOf d).map fun v => v.ident)[i]'(by simpa using hi)) :=
      List.getElem?_eq_getElem _
    rw [he]
    exact idxOf_getElem hn he
  cases t <;> cases v <;> first
    | exact hv.elim
    | rfl
    | (show TVal.known _ = _; rw [TVal.known.injEq]; exact key _ hv)
    | (show TVal.variant _ _ = _; rw [TVal.variant.injEq]; exact ⟨key _ hv, rfl⟩)

theorem matchKnown_lt (text : String) : ∀ (l : List (Option String)) (k i : Nat), matchKnown text l k = some i → i < k + l.length
  | [], _, _, h => by simp [matchKnown] at h
  | none :: l, k, i, h => by
    have := matchKnown_lt text l (k + 1) i (by simpa [matchKnown] using h)
    simp; omega
  | some t :: l, k, i, h => by
    simp only [matchKnown] at h
    split at h
    · simp at h; simp; omega
    · have := matchKnown_lt text l (k + 1) i h
      simp; omega

theorem parseVariants_lt (name text : String) : ∀ (l : List TextTy) (k : Nat) (es : List TErr) (v : TVal),
    TextTy.parseVariants l name text k es = .ok v → ∃ i x, v = .variant i x ∧ i < k + l.length
  | [], _, _, _, h => by simp [TextTy.parseVariants] at h
  | t :: l, k, es, v, h => by
    rw [TextTy.parseVariants] at h
    split at h
    · simp at h; exact ⟨_, _, h.symm, by simp⟩
    · obtain ⟨i, x, h1, h2⟩ := parseVariants_lt name text l (k + 1) _ v h
      exact ⟨i, x, h1, by simp; omega⟩
    · cases h

theorem parse_value (types : String → TextTy) (ty : String → String) (fromStr : String → Option Nat) (toString : Nat → String) (d : Decl)
    (t : TextDescribed) (h : TextDescribes d t) (text : String) (v : TVal)
    (hv : (textTy types ty fromStr toString d.ident (variantsOf d) t).parse text = .ok v) : ValueOf d t v := by
  cases t with
  | std ws =>
    simp only [textTy, TextTy.parse] at hv
    cases hn : SX.normalize text ws with
    | error f => rw [hn] at hv; simp [Res.ofExcept, Res.bind] at hv
    | ok s =>
      rw [hn] at hv
      simp only [Res.ofExcept, Res.bind] at hv
      split at hv
      · simp at hv; subst hv; trivial
      · cases hv
  | restriction ws l =>
    obtain ⟨_, _, vs, hvs, hr⟩ := h
    have hlen : (variantsOf d).length = l.length := by unfold variantsOf; rw [hvs]; exact rowwise_length hr
    simp only [textTy, TextTy.parse, parseRestriction] at hv
    change Res.bind _ _ = _ at hv
    cases hn : SX.normalize text ws with
    | error f => rw [hn] at hv; cases hv
    | ok s =>
      rw [hn] at hv
      simp only [Res.ofExcept, Res.bind] at hv
      cases hm : matchKnown s l 0 with
      | some i =>
        rw [hm] at hv
        simp at hv
        subst hv
        have := matchKnown_lt s l 0 i hm
        show i < _
        omega
      | none =>
        rw [hm] at hv
        simp only at hv
        split at hv
        · simp at hv; subst hv; trivial
        · cases hv
  | union ws l =>
    simp only [textTy, TextTy.parse] at hv
    cases hn : SX.normalize text ws with
    | error f => rw [hn] at hv; cases hv
    | ok s =>
      rw [hn] at hv
      simp only [Res.ofExcept, Res.bind] at hv
      obtain ⟨i, x, rfl, hi⟩ := parseVariants_lt _ _ _ _ _ _ hv
      show i < _
      simpa using hi

theorem toTextAt_lt (f : TVal) (text : String) : ∀ (l : List TextTy) (i : Nat), TextTy.toTextAt l i f = some text →
    ∃ t, l[i]? = some t ∧ t.toText f = some text
  | [], i, h => by simp [TextTy.toTextAt] at h
  | t :: l, 0, h => ⟨t, rfl, h⟩
  | t :: l, i + 1, h => toTextAt_lt f text l i h

theorem toText_value (types : String → TextTy) (ty : String → String) (fromStr : String → Option Nat) (toString : Nat → String) (d : Decl)
    (t : TextDescribed) (h : TextDescribes d t) (text : String) (v : TVal)
    (hv : (textTy types ty fromStr toString d.ident (variantsOf d) t).toText v = some text) : ValueOf d t v := by
  cases t with
  | std ws => cases v <;> first | trivial | (simp [textTy, TextTy.toText] at hv)
  | restriction ws l =>
    obtain ⟨_, _, vs, hvs, hr⟩ := h
    have hlen : (variantsOf d).length = l.length := by unfold variantsOf; rw [hvs]; exact rowwise_length hr
    cases v with
    | known i =>
      simp only [textTy, TextTy.toText] at hv
      show i < _
      rw [hlen]
      split at hv
      · rename_i hx; exact (List.getElem?_eq_some_iff.mp hx).1
      · cases hv
    | unknown s => trivial
    | _ => simp [textTy, TextTy.toText] at hv
  | union ws l =>
    cases v with
    | variant i x =>
      simp only [textTy, TextTy.toText] at hv
      obtain ⟨t, ht, _⟩ := toTextAt_lt x text _ i hv
      have := (List.getElem?_eq_some_iff.mp ht).1
      show i < _
      simpa using this
    | _ => simp [textTy, TextTy.toText] at hv

theorem tvalResult_resMap {d : Decl} (f : TVal → GTVal) (r : Res TErr TVal) (h : ∀ v, r = .ok v → tvalOf d (f v) = v) :
    tvalResult d (resMap f r) = r := by
  cases r with
  | ok v => simp [tvalResult, resMap, h v rfl]
  | err e => rfl
  | fault x => rfl

/-! ### The types -/

theorem textTy_congr {T T' : String → TextTy} (ty : String → String) (fromStr : String → Option Nat) (toString : Nat → String) (ident : String)
    (vs : List DVariant) (t : TextDescribed) (h : (∃ ws l, t = .union ws l) → ∀ v ∈ vs, T (ty v.ident) = T' (ty v.ident)) :
    textTy T ty fromStr toString ident vs t = textTy T' ty fromStr toString ident vs t := by
  cases t with
  | std ws => rfl
  | restriction ws l => rfl
  | union ws l =>
    simp only [textTy]
    congr 1
    exact List.map_congr_left fun v hv => h ⟨_, _, rfl⟩ v hv

theorem declaresText_unique {c : TextCrate} {T T' : String → TextTy} (hok : ∀ n d, c.decl n = some d → TextDeclOk d) (hc : TextCompiles c)
    (h : DeclaresText c T) (h' : DeclaresText c T') : ∀ n, T n = T' n := by
  obtain ⟨rank, hrank⟩ := hc.finite
  have main : ∀ k n, rank n ≤ k → T n = T' n := by
    intro k
    induction k using Nat.strongRecOn with
    | _ k ih =>
      intro n hn
      cases hd : c.decl n with
      | none => rw [h.library n hd, h'.library n hd]
      | some d =>
        obtain ⟨t, ht, e⟩ := h.derived n d hd
        obtain ⟨t', ht', e'⟩ := h'.derived n d hd
        have := textDescribes_unique (hok n d hd) ht ht'
        subst this
        rw [e, e']
        apply textTy_congr
        rintro ⟨ws, l, rfl⟩ v hv
        have hr := hrank n d hd v hv (union_fields (hok n d hd) ht v hv)
        exact ih (rank (c.fieldTy n v.ident)) (by omega) _ (Nat.le_refl _)
  exact fun n => main _ n (Nat.le_refl _)

/-- The text types of a crate, to a depth. -/
def resolveText (c : TextCrate) : Nat → String → TextTy
  | 0, _ => .string
  | k + 1, n =>
    match c.decl n with
    | none => c.library n
    | some d =>
      match (describeText d).1 with
      | none => .string
      | some t => textTy (resolveText c k) (c.fieldTy n) (c.fromStr n) (c.toString n) d.ident (variantsOf d) t

theorem declaresText_exists {c : TextCrate} (hok : ∀ n d, c.decl n = some d → TextDeclOk d) (hc : TextCompiles c) : ∃ T, DeclaresText c T := by
  obtain ⟨rank, hrank⟩ := hc.finite
  have describe : ∀ n d, c.decl n = some d → ∃ t, (describeText d).1 = some t ∧ TextDescribes d t := fun n d hd =>
    (describeText_spec d).2 ((describeText_spec d).1.mpr (hok n d hd))
  have stable : ∀ k k' n, rank n < k → rank n < k' → resolveText c k n = resolveText c k' n := by
    intro k
    induction k with
    | zero => intro k' n h; omega
    | succ k ih =>
      intro k' n h h'
      cases k' with
      | zero => omega
      | succ k' =>
        unfold resolveText
        cases hd : c.decl n with
        | none => rfl
        | some d =>
          obtain ⟨t, ht, htd⟩ := describe n d hd
          simp only [ht]
          apply textTy_congr
          rintro ⟨ws, l, rfl⟩ v hv
          have hr := hrank n d hd v hv (union_fields (hok n d hd) htd v hv)
          exact ih k' _ (by omega) (by omega)
  refine ⟨fun n => resolveText c (rank n + 1) n, fun n hd => by simp [resolveText, hd], fun n d hd => ?_⟩
  obtain ⟨t, ht, htd⟩ := describe n d hd
  refine ⟨t, htd, ?_⟩
  show resolveText c (rank n + 1) n = _
  rw [resolveText]
  simp only [hd, ht]
  apply textTy_congr
  rintro ⟨ws, l, rfl⟩ v hv
  have hr := hrank n d hd v hv (union_fields (hok n d hd) htd v hv)
  exact stable _ _ _ hr (by omega)

/-! ### Parsing -/

theorem parses_types {c : TextCrate} {code : TextEmitted} {T : String → TextTy} (ha : AcceptedParse c code) (hc : TextCompiles c)
    (hT : DeclaresText c T) : c.Parses code fun n => (T n).parse := by
  refine ⟨fun n hd text => by rw [hT.library n hd], fun n d hd text => ?_⟩
  obtain ⟨hok, t, ht, hcode⟩ := acceptedParse_code ha hd
  obtain ⟨t', ht', e⟩ := hT.derived n d hd
  have := textDescribes_unique hok ht ht'
  subst this
  rw [hcode, text_parse T (c.fieldTy n) (c.fromStr n) (c.toString n) d t ht text, ← e]
  refine (tvalResult_resMap _ _ fun v hv => ?_).symm
  rw [e] at hv
  exact tvalOf_textValue (hc.idents n d hd) t v (parse_value _ _ _ _ _ _ ht _ _ hv)

theorem parses_eq {c : TextCrate} {code : TextEmitted} (ha : AcceptedParse c code) (hc : TextCompiles c)
    {p q : String → String → Res TErr TVal} (hp : c.Parses code p) (hq : c.Parses code q) : ∀ n text, p n text = q n text := by
  obtain ⟨rank, hrank⟩ := hc.finite
  have main : ∀ k n, rank n ≤ k → ∀ text, p n text = q n text := by
    intro k
    induction k using Nat.strongRecOn with
    | _ k ih =>
      intro n hn text
      cases hd : c.decl n with
      | none => rw [hp.library n hd, hq.library n hd]
      | some d =>
        obtain ⟨hok, t, ht, hcode⟩ := acceptedParse_code ha hd
        rw [hp.derived n d hd, hq.derived n d hd, hcode]
        congr 1
        apply parseRun_congr d _ t _ _ ht
        rintro ⟨ws, l, rfl⟩ v hv text
        have hr := hrank n d hd v hv (union_fields hok ht v hv)
        exact ih (rank (c.fieldTy n v.ident)) (by omega) _ (Nat.le_refl _) text
  exact fun n => main _ n (Nat.le_refl _)

/-! ### Printing -/

theorem arms_restriction_inv (types : String → TVal → Option String) (tys : String → String) (text : String) (g : GTVal) :
    ∀ (idents : List String) (texts : List (Option String)),
      runTextArms types tys ((idents.zip texts).map restrictionArm) g = some text →
      (∃ (v : String) (i : Nat), g = .unit v ∧ idents[i]? = some v ∧ texts[i]? = some (some text)) ∨ (∃ v, g = .text v text ∧ none ∈ texts)
  | [], _, h => by simp [runTextArms] at h
  | _ :: _, [], h => by simp [runTextArms] at h
  | v :: idents, x :: texts, h => by
    have ih := arms_restriction_inv types tys text g idents texts
    have lift : runTextArms types tys ((idents.zip texts).map restrictionArm) g = some text →
        (∃ (w : String) (i : Nat), g = .unit w ∧ (v :: idents)[i]? = some w ∧ (x :: texts)[i]? = some (some text)) ∨ (∃ v, g = .text v text ∧ none ∈ x :: texts) := by
      intro h
      rcases ih h with ⟨w, i, h1, h2, h3⟩ | ⟨w, h1, h2⟩
      · exact .inl ⟨w, i + 1, h1, by simpa using h2, by simpa using h3⟩
      · exact .inr ⟨w, h1, List.mem_cons_of_mem _ h2⟩
    cases x with
    | some t =>
      simp only [List.zip_cons_cons, List.map_cons, restrictionArm] at h
      cases g with
      | unit w =>
        simp only [runTextArms] at h
        split at h
        · rename_i he
          subst he
          exact .inl ⟨v, 0, rfl, rfl, by simpa using h⟩
        · exact lift h
      | _ => exact lift (by simpa only [runTextArms] using h)
    | none =>
      simp only [List.zip_cons_cons, List.map_cons, restrictionArm] at h
      cases g with
      | text w s =>
        simp only [runTextArms] at h
        split at h
        · simp only [Option.some.injEq] at h
          subst h
          exact .inr ⟨w, rfl, List.mem_cons_self⟩
        · exact lift h
      | _ => exact lift (by simpa only [runTextArms] using h)

theorem arms_union_inv (types : String → TVal → Option String) (tys : String → String) (text : String) (g : GTVal) : ∀ (vs : List String),
    runTextArms types tys (vs.map .field) g = some text → ∃ (v : String) (x : TVal) (i : Nat), g = .field v x ∧ vs[i]? = some v ∧ types (tys v) x = some text
  | [], h => by simp [runTextArms] at h
  | w :: vs, h => by
    have ih := arms_union_inv types tys text g vs
    have lift : runTextArms types tys (vs.map .field) g = some text →
        ∃ (v : String) (x : TVal) (i : Nat), g = .field v x ∧ (w :: vs)[i]? = some v ∧ types (tys v) x = some text := by
      intro h
      obtain ⟨v, x, i, h1, h2, h3⟩ := ih h
      exact ⟨v, x, i + 1, h1, by simpa using h2, h3⟩
    simp only [List.map_cons] at h
    cases g with
    | field u x =>
      simp only [runTextArms] at h
      split at h
      · rename_i he
        subst he
        exact ⟨w, x, 0, rfl, rfl, h⟩
      · exact lift h
    | _ => exact lift (by simpa only [runTextArms] using h)

theorem arms_union (types : String → TVal → Option String) (tys : String → String) (v : String) (x : TVal) : ∀ (vs : List String),
    v ∈ vs → runTextArms types tys (vs.map .field) (.field v x) = types (tys v) x
  | [], h => by simp at h
  | w :: vs, h => by
    simp only [List.map_cons, runTextArms]
    split
    · rename_i he; rw [he]
    · rename_i he
      exact arms_union types tys v x vs ((List.mem_cons.mp h).resolve_left fun e => he e.symm)

theorem toTextAt_get (f : TVal) : ∀ (l : List TextTy) (i : Nat) (t : TextTy), l[i]? = some t → TextTy.toTextAt l i f = t.toText f
  | [], _, _, h => by simp at h
  | t :: l, 0, u, h => by simp at h; subst h; rfl
  | t :: l, i + 1, u, h => toTextAt_get f l i u (by simpa using h)

theorem union_arms {d : Decl} {ws : WhiteSpace} {l : List Nat} (h : TextDescribes d (.union ws l)) (ty : String → String) :
    toTextCode (GText.ofDescribed ty (variantsOf d) (.union ws l)) = .arms (((variantsOf d).map fun v => v.ident).map .field) := by
  have hl : l = List.range (variantsOf d).length := by
    obtain ⟨_, _, vs, hvs, rfl⟩ := h
    unfold variantsOf; rw [hvs]
  subst hl
  simp [GText.ofDescribed, unionIdents_all, toTextCode, List.map_map, Function.comp_def]

theorem prints_types {c : TextCrate} {code : TextEmitted} {T : String → TextTy} (ha : AcceptedToText c code) (hc : TextCompiles c)
    (hT : DeclaresText c T) : c.Prints code fun n => (T n).toText := by
  refine ⟨fun n hd v => by rw [hT.library n hd], fun n d hd g text hg => ?_⟩
  obtain ⟨hok, t, ht, hcode⟩ := acceptedToText_code ha hd
  obtain ⟨t', ht', e⟩ := hT.derived n d hd
  have := textDescribes_unique hok ht ht'
  subst this
  have hn := hc.idents n d hd
  rw [hcode] at hg
  rw [e]
  cases t with
  | std ws => cases g <;> first | exact hg | (simp [GText.ofDescribed, toTextCode, ToTextCode.run] at hg)
  | restriction ws texts =>
    simp only [GText.ofDescribed, toTextCode, ToTextCode.run] at hg
    rcases arms_restriction_inv _ _ _ _ _ _ hg with ⟨v, i, rfl, h2, h3⟩ | ⟨v, rfl, h2⟩
    · simp only [tvalOf, declVariants_variantsOf, idxOf_getElem hn h2, textTy, TextTy.toText, h3]
    · simp [tvalOf, textTy, TextTy.toText, h2]
  | union ws l =>
    rw [union_arms ht] at hg
    obtain ⟨v, x, i, rfl, h2, h3⟩ := arms_union_inv _ _ _ _ _ hg
    simp only [tvalOf, declVariants_variantsOf, idxOf_getElem hn h2, textTy, TextTy.toText]
    rw [toTextAt_get x _ i (T (c.fieldTy n v))]
    · exact h3
    · rw [List.getElem?_map] at h2 ⊢
      cases hv : (variantsOf d)[i]? with
      | none => rw [hv] at h2; cases h2
      | some w =>
        rw [hv] at h2
        simp only [Option.map_some, Option.some.injEq] at h2 ⊢
        rw [h2]

theorem restriction_any (p q : String → TVal → Option String) (tys : String → String) (g : GTVal) : ∀ (l : List (String × Option String)),
    runTextArms p tys (l.map restrictionArm) g = runTextArms q tys (l.map restrictionArm) g
  | [] => rfl
  | (v, some t) :: l => by
    have ih := restriction_any p q tys g l
    cases g <;> simp only [List.map_cons, restrictionArm, runTextArms, ih]
  | (v, none) :: l => by
    have ih := restriction_any p q tys g l
    cases g <;> simp only [List.map_cons, restrictionArm, runTextArms, ih]

theorem prints_of_types {c : TextCrate} {code : TextEmitted} {T : String → TextTy} {p : String → TVal → Option String} (ha : AcceptedToText c code)
    (hc : TextCompiles c) (hT : DeclaresText c T) (hp : c.Prints code p) :
    ∀ n v text, (T n).toText v = some text → p n v = some text := by
  obtain ⟨rank, hrank⟩ := hc.finite
  have main : ∀ k n, rank n ≤ k → ∀ v text, (T n).toText v = some text → p n v = some text := by
    intro k
    induction k using Nat.strongRecOn with
    | _ k ih =>
      intro n hn v text hv
      cases hd : c.decl n with
      | none => rw [hp.library n hd, ← hT.library n hd]; exact hv
      | some d =>
        obtain ⟨hok, t, ht, hcode⟩ := acceptedToText_code ha hd
        obtain ⟨t', ht', e⟩ := hT.derived n d hd
        have := textDescribes_unique hok ht ht'
        subst this
        rw [e] at hv
        have hval := toText_value _ _ _ _ _ _ ht _ _ hv
        rw [← tvalOf_textValue (hc.idents n d hd) t v hval]
        apply hp.derived n d hd
        have hrun := text_toText T (c.fieldTy n) (c.fromStr n) (c.toString n) d t ht (hc.idents n d hd) v text hv
        rw [hcode]
        cases t with
        | std ws => exact hrun
        | restriction ws texts =>
          simp only [GText.ofDescribed, toTextCode, ToTextCode.run] at hrun ⊢
          generalize textValue (variantsOf d) (.restriction ws texts) v = g at hrun
          rw [← hrun]
          exact restriction_any _ _ _ _ _
        | union ws l =>
          rw [union_arms ht] at hrun ⊢
          obtain ⟨w, x, i, hg, h2, h3⟩ := arms_union_inv _ _ _ _ _ hrun
          rw [hg]
          show runTextArms _ _ _ _ = _
          rw [arms_union _ _ _ _ _ (List.mem_of_getElem? h2)]
          rw [List.getElem?_map] at h2
          cases hw : (variantsOf d)[i]? with
          | none => rw [hw] at h2; cases h2
          | some u =>
            rw [hw] at h2
            simp only [Option.map_some, Option.some.injEq] at h2
            subst h2
            have hu := List.mem_of_getElem? hw
            have hr := hrank n d hd u hu (union_fields hok ht u hu)
            exact ih _ (by omega) _ (Nat.le_refl _) x text h3
  exact fun n => main _ n (Nat.le_refl _)

end SX.Gen
