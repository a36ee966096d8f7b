import Verif.Proof.GenSer
import Verif.Proof.MacroText

/-
The code generated for `ParseText` and `ToText` does what `Model/Text.lean` says.
-/
namespace SX.Gen
open SX.Spec.Gen

theorem normalize_preserve (text : String) : SX.normalize text .preserve = .ok text := by
  have h : String.fromUTF8? text.toByteArray = some text := by
    simp only [String.fromUTF8?, String.validateUTF8]
    rw [dif_pos text.isValidUTF8]
    rfl
  simp [SX.normalize, normalizeBytes, h]

theorem normalizeStmt_run (ws : WhiteSpace) (text : String) :
    runNormalize text (normalizeStmt ws) = Res.ofExcept (SX.normalize text ws) := by
  cases ws
  · rw [normalize_preserve]; rfl
  · rfl
  · rfl

/-! ### Restrictions -/

theorem unknownVariant_eq : ∀ (texts : List (Option String)) (k : Nat),
    unknownVariant texts k = if none ∈ texts then some (k + texts.idxOf none) else none
  | [], k => rfl
  | none :: texts, k => by simp [unknownVariant]
  | some t :: texts, k => by
    rw [unknownVariant, unknownVariant_eq texts (k + 1)]
    have : (some t :: texts).idxOf none = texts.idxOf none + 1 := by simp [List.idxOf_cons]
    rw [this]
    by_cases h : none ∈ texts
    · simp [h]; omega
    · simp [h]

theorem runKnown_eq (text : String) (fall : TFall) : ∀ (idents : List String) (texts : List (Option String)) (pre : List String),
    idents.length = texts.length →
    runKnown text fall (knownArms (idents.zip texts)) =
      (match matchKnown text texts pre.length with
      | some i => .ok (.unit ((pre ++ idents)[i]?.getD ""))
      | none => fall.run text)
  | [], [], pre, _ => rfl
  | [], _ :: _, _, h => by simp at h
  | _ :: _, [], _, h => by simp at h
  | v :: idents, none :: texts, pre, h => by
    have ih := runKnown_eq text fall idents texts (pre ++ [v]) (by simpa using h)
    simp only [List.zip_cons_cons, knownArms, matchKnown]
    rw [ih]
    simp
  | v :: idents, some t :: texts, pre, h => by
    have ih := runKnown_eq text fall idents texts (pre ++ [v]) (by simpa using h)
    simp only [List.zip_cons_cons, knownArms, matchKnown, runKnown]
    by_cases he : text = t
    · simp [he]
    · rw [if_neg he, if_neg he, ih]
      simp

theorem restriction_parse (types : String → TextTy) (fromStr : String → Option Nat) (ident : String) (ws : WhiteSpace) (idents : List String)
    (texts : List (Option String)) (h : idents.length = texts.length) (text : String) :
    (parseCode ident (.restriction ws (idents.zip texts) (unknownVariant texts 0))).run (fun n => (types n).parse) fromStr text =
      resMap (restrictionValue idents texts) ((TextTy.restriction ident ws texts).parse text) := by
  unfold ParseCode.run parseCode
  simp only [normalizeStmt_run, TextTy.parse, parseRestriction]
  show Res.bind _ _ = resMap _ (Res.bind _ _)
  cases SX.normalize text ws with
  | error f => rfl
  | ok text =>
    simp only [Res.ofExcept, Res.bind]
    have hk := runKnown_eq text (fallOf ident (idents.zip texts) (unknownVariant texts 0)) idents texts [] h
    simp only [List.length_nil, List.nil_append] at hk
    rw [hk]
    cases matchKnown text texts 0 with
    | some i => rfl
    | none =>
      simp only [fallOf, unknownVariant_eq, Nat.zero_add]
      by_cases hm : none ∈ texts
      · have hi : texts.idxOf none < texts.length := List.idxOf_lt_length_of_mem hm
        have hv : idents[texts.idxOf none]? = some idents[texts.idxOf none] := List.getElem?_eq_getElem (by omega)
        have ht : texts[texts.idxOf none]? = some texts[texts.idxOf none] := List.getElem?_eq_getElem hi
        have hz : (idents.zip texts)[texts.idxOf none]? = some (idents[texts.idxOf none], texts[texts.idxOf none]) :=
          List.getElem?_zip_eq_some.mpr ⟨hv, ht⟩
        rw [if_pos hm, Option.bind_some, hz]
        simp [hm, resMap, restrictionValue, hv, TFall.run]
      · rw [if_neg hm]
        simp [hm, resMap, TFall.run]

/-- Values of a restriction with the given texts. -/
def RestrictionVal (texts : List (Option String)) : TVal → Prop
  | .known i => ∃ t, texts[i]? = some (some t)
  | .unknown _ => none ∈ texts
  | _ => False

theorem arms_known (types : String → TextTy) (tys : String → String) : ∀ (idents : List String) (texts : List (Option String)) (i : Nat) (t : String),
    idents.length = texts.length → idents.Nodup → texts[i]? = some (some t) →
    runTextArms (fun n => (types n).toText) tys ((idents.zip texts).map restrictionArm) (.unit (idents[i]?.getD "")) = some t
  | [], [], _, _, _, _, h => by simp at h
  | [], _ :: _, _, _, hl, _, _ => by simp at hl
  | _ :: _, [], _, _, hl, _, _ => by simp at hl
  | v :: idents, x :: texts, 0, t, hl, hd, h => by
    simp only [List.getElem?_cons_zero, Option.some.injEq] at h
    subst h
    simp [restrictionArm, runTextArms]
  | v :: idents, x :: texts, i + 1, t, hl, hd, h => by
    simp only [List.getElem?_cons_succ] at h ⊢
    have hl' : idents.length = texts.length := by simpa using hl
    have hd' := List.nodup_cons.mp hd
    have ih := arms_known types tys idents texts i t hl' hd'.2 h
    obtain ⟨hi, _⟩ := List.getElem?_eq_some_iff.mp h
    have hne : v ≠ idents[i]?.getD "" := by
      rw [List.getElem?_eq_getElem (by omega)]
      intro he
      exact hd'.1 (he ▸ List.getElem_mem _)
    cases x with
    | none => simpa [restrictionArm, runTextArms] using ih
    | some u => simpa [restrictionArm, runTextArms, hne] using ih

theorem arms_unknown (types : String → TextTy) (tys : String → String) (s : String) : ∀ (idents : List String) (texts : List (Option String)),
    idents.length = texts.length → idents.Nodup → none ∈ texts →
    runTextArms (fun n => (types n).toText) tys ((idents.zip texts).map restrictionArm) (.text (idents[texts.idxOf none]?.getD "") s) = some s
  | [], [], _, _, h => by simp at h
  | [], _ :: _, hl, _, _ => by simp at hl
  | _ :: _, [], hl, _, _ => by simp at hl
  | v :: idents, none :: texts, hl, hd, h => by simp [restrictionArm, runTextArms]
  | v :: idents, some u :: texts, hl, hd, h => by
    have hl' : idents.length = texts.length := by simpa using hl
    have ih := arms_unknown types tys s idents texts hl' (List.nodup_cons.mp hd).2 (by simpa using h)
    have : (some u :: texts).idxOf none = texts.idxOf none + 1 := by simp [List.idxOf_cons]
    rw [this]
    simpa [restrictionArm, runTextArms] using ih

theorem restriction_toText (types : String → TextTy) (tys : String → String) (toString : Nat → String) (ident : String) (ws : WhiteSpace)
    (idents : List String) (texts : List (Option String)) (unknown : Option Nat) (h : idents.length = texts.length) (hd : idents.Nodup) (v : TVal)
    (hv : RestrictionVal texts v) :
    (toTextCode (.restriction ws (idents.zip texts) unknown)).run (fun n => (types n).toText) tys toString (restrictionValue idents texts v) =
      (TextTy.restriction ident ws texts).toText v := by
  unfold toTextCode ToTextCode.run
  cases v with
  | known i =>
    obtain ⟨t, ht⟩ := hv
    simp only [restrictionValue, TextTy.toText, ht]
    exact arms_known types tys idents texts i t h hd ht
  | unknown s =>
    have hm : none ∈ texts := hv
    simp only [restrictionValue, TextTy.toText]
    rw [if_pos (by simpa using hm)]
    exact arms_unknown types tys s idents texts h hd hm
  | bool b => exact hv.elim
  | int n => exact hv.elim
  | str s => exact hv.elim
  | «opaque» n => exact hv.elim
  | variant i v => exact hv.elim

/-! ### Unions -/

theorem runAttempts_eq (types : String → TextTy) (ident text : String) : ∀ (vs : List (String × String)) (pre : List String) (errors : List TErr),
    runAttempts (fun n => (types n).parse) ident text vs errors =
      resMap (unionValue (pre ++ vs.map Prod.fst)) (TextTy.parseVariants (vs.map fun v => types v.2) ident text pre.length errors)
  | [], pre, errors => by simp [runAttempts, TextTy.parseVariants, resMap]
  | (v, ty) :: vs, pre, errors => by
    have ih := fun errors => runAttempts_eq types ident text vs (pre ++ [v]) errors
    simp only [List.map_cons, runAttempts, TextTy.parseVariants]
    cases (types ty).parse text with
    | ok r => simp [resMap, unionValue]
    | err e =>
      simp only [ih]
      simp
    | fault f => rfl

theorem union_parse (types : String → TextTy) (fromStr : String → Option Nat) (ident : String) (ws : WhiteSpace) (vs : List (String × String))
    (text : String) :
    (parseCode ident (.union ws vs)).run (fun n => (types n).parse) fromStr text =
      resMap (unionValue (vs.map Prod.fst)) ((TextTy.union ident ws (vs.map fun v => types v.2)).parse text) := by
  unfold ParseCode.run parseCode
  simp only [normalizeStmt_run, TextTy.parse]
  cases SX.normalize text ws with
  | error f => rfl
  | ok text => exact runAttempts_eq types ident text vs [] []

theorem arms_field (types : String → TextTy) (tys : String → String) (f : TVal) : ∀ (vs : List (String × String)) (i : Nat) (v : String × String),
    (vs.map Prod.fst).Nodup → (∀ v ∈ vs, tys v.1 = v.2) → vs[i]? = some v →
    runTextArms (fun n => (types n).toText) tys (vs.map fun v => .field v.1) (.field v.1 f) = TextTy.toTextAt (vs.map fun v => types v.2) i f
  | [], _, _, _, _, h => by simp at h
  | w :: vs, 0, v, _, ht, h => by
    simp only [List.getElem?_cons_zero, Option.some.injEq] at h
    subst h
    simp [runTextArms, TextTy.toTextAt, ht w List.mem_cons_self]
  | w :: vs, i + 1, v, hd, ht, h => by
    simp only [List.getElem?_cons_succ] at h
    have hd' := List.nodup_cons.mp hd
    have ih := arms_field types tys f vs i v hd'.2 (fun u hu => ht u (List.mem_cons_of_mem _ hu)) h
    have hne : w.1 ≠ v.1 := by
      intro he
      exact hd'.1 (he ▸ List.mem_map_of_mem (List.mem_of_getElem? h))
    simpa [runTextArms, TextTy.toTextAt, hne] using ih

theorem union_toText (types : String → TextTy) (tys : String → String) (toString : Nat → String) (ident : String) (ws : WhiteSpace)
    (vs : List (String × String)) (hd : (vs.map Prod.fst).Nodup) (ht : ∀ v ∈ vs, tys v.1 = v.2) (i : Nat) (f : TVal) (hi : i < vs.length) :
    (toTextCode (.union ws vs)).run (fun n => (types n).toText) tys toString (unionValue (vs.map Prod.fst) (.variant i f)) =
      (TextTy.union ident ws (vs.map fun v => types v.2)).toText (.variant i f) := by
  unfold toTextCode ToTextCode.run
  simp only [unionValue, TextTy.toText]
  have hv : vs[i]? = some vs[i] := List.getElem?_eq_getElem hi
  rw [← arms_field types tys f vs i vs[i] hd ht hv]
  simp [hv]

/-! ### Descriptions of declarations -/

/-! ### Types read by `FromStr` -/

theorem std_parse (types : String → TextTy) (ident : String) (ws : WhiteSpace) (fromStr : String → Option Nat) (toString : Nat → String) (text : String) :
    (parseCode ident (.std ws)).run (fun n => (types n).parse) fromStr text = resMap stdValue ((TextTy.std ws fromStr toString).parse text) := by
  unfold ParseCode.run parseCode
  simp only [normalizeStmt_run, TextTy.parse]
  cases SX.normalize text ws with
  | error f => rfl
  | ok text =>
    simp only [Res.ofExcept, Res.bind]
    cases fromStr text <;> rfl

theorem std_toText (types : String → TextTy) (tys : String → String) (ws : WhiteSpace) (fromStr : String → Option Nat) (toString : Nat → String)
    (n : Nat) :
    (toTextCode (.std ws)).run (fun n => (types n).toText) tys toString (stdValue (.opaque n)) = (TextTy.std ws fromStr toString).toText (.opaque n) := rfl

/-! ### Descriptions of declarations -/

theorem rowwise_length {α β : Type} {R : α → β → Prop} {l : List α} {m : List β} (h : Spec.Rowwise R l m) : l.length = m.length := by
  induction h with
  | nil => rfl
  | cons _ _ ih => simp [ih]

theorem unionIdents_range (ty : String → String) : ∀ (vs pre : List DVariant),
    unionIdents ty (pre ++ vs) ((List.range vs.length).map (pre.length + ·)) = vs.map fun v => (v.ident, ty v.ident)
  | [], pre => rfl
  | v :: vs, pre => by
    have ih := unionIdents_range ty vs (pre ++ [v])
    rw [List.length_cons, List.range_succ_eq_map]
    simp only [List.map_cons, List.map_map, Nat.add_zero, unionIdents]
    rw [List.getElem?_append_right (Nat.le_refl _)]
    simp only [Nat.sub_self, List.getElem?_cons_zero]
    rw [← ih]
    simp only [List.append_assoc, List.singleton_append, List.length_append, List.length_singleton]
    congr 2
    apply List.map_congr_left
    intro a _
    simp; omega

theorem unionIdents_all (ty : String → String) (vs : List DVariant) :
    unionIdents ty vs (List.range vs.length) = vs.map fun v => (v.ident, ty v.ident) := by
  have := unionIdents_range ty vs []
  simpa using this

theorem text_parse (types : String → TextTy) (ty : String → String) (fromStr : String → Option Nat) (toString : Nat → String) (d : Decl)
    (t : TextDescribed) (h : Spec.TextDescribes d t) (text : String) :
    (parseCode d.ident (GText.ofDescribed ty (variantsOf d) t)).run (fun n => (types n).parse) fromStr text =
      resMap (textValue (variantsOf d) t) ((textTy types ty fromStr toString d.ident (variantsOf d) t).parse text) := by
  cases t with
  | std ws => exact std_parse types d.ident ws fromStr toString text
  | restriction ws texts =>
    obtain ⟨_, _, vs, hvs, hr⟩ := h
    have hv : variantsOf d = vs := by unfold variantsOf; rw [hvs]
    rw [hv]
    exact restriction_parse types fromStr d.ident ws _ texts (by simpa using rowwise_length hr) text
  | union ws is =>
    obtain ⟨_, _, vs, hvs, rfl⟩ := h
    have hv : variantsOf d = vs := by unfold variantsOf; rw [hvs]
    rw [hv]
    unfold GText.ofDescribed textTy textValue
    simp only [unionIdents_all]
    rw [union_parse]
    simp [List.map_map, Function.comp_def]

theorem text_toText (types : String → TextTy) (ty : String → String) (fromStr : String → Option Nat) (toString : Nat → String) (d : Decl)
    (t : TextDescribed) (h : Spec.TextDescribes d t) (hn : ((variantsOf d).map fun v => v.ident).Nodup) (v : TVal) (text : String)
    (hv : (textTy types ty fromStr toString d.ident (variantsOf d) t).toText v = some text) :
    (toTextCode (GText.ofDescribed ty (variantsOf d) t)).run (fun n => (types n).toText) ty toString (textValue (variantsOf d) t v) = some text := by
  cases t with
  | std ws =>
    cases v with
    | «opaque» n => exact hv
    | _ => simp [textTy, TextTy.toText] at hv
  | restriction ws texts =>
    obtain ⟨_, _, vs, hvs, hr⟩ := h
    have he : variantsOf d = vs := by unfold variantsOf; rw [hvs]
    rw [he] at hv hn ⊢
    rw [← hv]
    refine restriction_toText types ty toString d.ident ws _ texts _ (by simpa using rowwise_length hr) hn v ?_
    cases v with
    | known i =>
      simp only [textTy, TextTy.toText] at hv
      unfold RestrictionVal
      split at hv <;> simp_all
    | unknown s =>
      simp only [textTy, TextTy.toText] at hv
      unfold RestrictionVal
      split at hv <;> simp_all
    | _ => simp [textTy, TextTy.toText] at hv
  | union ws is =>
    obtain ⟨_, _, vs, hvs, rfl⟩ := h
    have he : variantsOf d = vs := by unfold variantsOf; rw [hvs]
    rw [he] at hv hn ⊢
    cases v with
    | variant i f =>
      have hi : i < vs.length := by
        simp only [textTy, TextTy.toText] at hv
        have key : ∀ (l : List TextTy) (i : Nat), TextTy.toTextAt l i f = some text → i < l.length := by
          intro l
          induction l with
          | nil => intro i h; simp [TextTy.toTextAt] at h
          | cons a l ih =>
            intro i h
            cases i with
            | zero => simp
            | succ i => simpa using ih i (by simpa [TextTy.toTextAt] using h)
        simpa using key _ i hv
      unfold GText.ofDescribed textValue
      simp only [unionIdents_all]
      have := union_toText types ty toString d.ident ws (vs.map fun v => (v.ident, ty v.ident)) (by simpa [List.map_map, Function.comp_def] using hn)
        (by intro v h; obtain ⟨w, _, rfl⟩ := List.mem_map.mp h; rfl) i f (by simpa using hi)
      simp only [List.map_map, Function.comp_def] at this
      rw [this]
      exact hv
    | _ => simp [textTy, TextTy.toText] at hv

end SX.Gen
