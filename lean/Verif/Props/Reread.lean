import Verif.Proof.Reread
import Verif.Props.RoundTrip

/-! # C45: what was read can be written and read again -/
namespace SX
open Spec

theorem not_blank_of_head {s : String} {c : Char} (h : c ∈ s.toList) (hc : isWs c = false) : ¬ Blank s := by
  intro hb
  rw [hb c h] at hc
  cases hc

theorem dropWhile_nil_all {α : Type} (p : α → Bool) (l : List α) (h : l.dropWhile p = []) : ∀ x ∈ l, p x = true := by
  induction l with
  | nil => simp
  | cons a l ih =>
    by_cases ha : p a = true
    · rw [List.dropWhile_cons_of_pos ha] at h
      intro x hx
      rcases List.mem_cons.mp hx with rfl | hx
      · exact ha
      · exact ih h x hx
    · rw [List.dropWhile_cons_of_neg ha] at h
      cases h

theorem blank_normText (ws : WhiteSpace) (s : String) (h : Blank (normText ws s)) : Blank s := by
  intro c hc
  cases ws with
  | preserve =>
    apply h
    simpa [normText, normalized] using hc
  | replace =>
    by_cases hw : isWs c = true
    · exact hw
    · apply h
      simp only [normText, normalized, String.toList_ofList, replaceWs, List.mem_map]
      exact ⟨c, hc, by simp [hw]⟩
  | collapse =>
    by_cases hw : isWs c = true
    · exact hw
    · exfalso
      simp only [normText, normalized, collapseWs] at h
      obtain ⟨-, h2, -, -, h3⟩ := intercalate_shape _ (collapse_words_noWs s.toList)
      have hne : words isWs s.toList ≠ [] := by
        intro he
        have : s.toList.dropWhile isWs = [] := by
          rw [words] at he
          split at he
          · assumption
          · cases he
        exact hw (dropWhile_nil_all _ _ this c hc)
      cases hl : List.intercalate [' '] (words isWs s.toList) with
      | nil => exact h3 hne hl
      | cons x xs =>
        rw [hl] at h h2
        exact not_blank_of_head (s := String.ofList (x :: xs)) (c := x) (by simp) (h2 x rfl) h

theorem normText_idem (ws : WhiteSpace) (s : String) : normText ws (normText ws s) = normText ws s := by
  have h := C03_normalize_idempotent s (normText ws s) ws (C01_normalize_spec s ws)
  rw [C01_normalize_spec] at h
  exact Except.ok.inj h

/-- C45, text types: `bool`, integers and strings read from any text are written as a text that is read as the same value. -/
theorem C45_bool_stable : Stable .bool := by
  intro s v h
  have : ∃ b, v = .bool b := by
    unfold TextTy.parse parseBool at h
    split at h <;> first | (cases h; done) | exact ⟨_, (Res.ok.inj h).symm⟩
  obtain ⟨b, rfl⟩ := this
  refine ⟨_, rfl, C04_bool_roundtrip b _ _ rfl ⟨[], [], by simp⟩, ?_⟩
  intro hb
  exfalso
  cases b <;> exact absurd hb (by decide)

theorem C45_int_stable (t : IntTy) : Stable (.int t) := by
  intro s v h
  obtain ⟨core, n, h1, h2, h3, rfl⟩ := (C05_int_parse t s v).mp h
  refine ⟨_, rfl, C05_int_roundtrip t n h3 _ _ rfl ⟨[], [], by simp⟩, ?_⟩
  intro hb
  exfalso
  obtain ⟨h4, h5, -⟩ := intLiteral_ends _ _ _ (intToString_literal t n ((range_iff t n).mpr h3).1)
  cases hl : (intToString n).toList with
  | nil => exact h4 hl
  | cons c cs => exact not_blank_of_head (c := c) (by simp [hl]) (h5 c (by simp [hl])) hb

theorem C45_string_stable : Stable .string := by
  intro s v h
  cases h
  exact ⟨s, rfl, rfl, fun h => h⟩

/-- Likewise derived restrictions, whatever the declared texts and white space mode are. -/
theorem C45_restriction_stable (name : String) (ws : WhiteSpace) (variants : List (Option String)) :
    Stable (.restriction name ws variants) := by
  intro s v h
  have h1 := C06_restriction_parse name ws variants s
  have h2 := C06_restriction_parse name ws variants (normText ws s)
  rw [normText_idem] at h2
  have hsame : (TextTy.restriction name ws variants).parse (normText ws s) = .ok v := by
    rw [← h]
    unfold TextTy.parse parseRestriction
    show Res.bind _ _ = Res.bind _ _
    rw [parse_normalize, parse_normalize, normText_idem]
  rw [h] at h1
  refine ⟨normText ws s, ?_, hsame, blank_normText ws s⟩
  cases v with
  | known i =>
    obtain ⟨h3, -⟩ := h1
    simp [TextTy.toText, h3]
  | unknown u =>
    obtain ⟨-, h3, rfl⟩ := h1
    simp [TextTy.toText, h3]
  | _ => exact absurd h1 (by simp [RestrictionResult])

/-- Unions are stable if every value that is read can be read from its text by its own type and by no earlier one. -/
theorem C45_union_stable (name : String) (ws : WhiteSpace) (vs : List TextTy)
    (h : ∀ (i : Nat) (t : TextTy) (s : String) (v : TVal), vs[i]? = some t → t.parse s = .ok v → normText ws s = s →
      (∀ (j : Nat) (t' : TextTy), j < i → vs[j]? = some t' → ∃ e, t'.parse s = .err e) →
      ∃ s', t.toText v = some s' ∧ (Blank s' → Blank s) ∧ t.parse (normText ws s') = .ok v ∧
        ∀ (j : Nat) (t' : TextTy), j < i → vs[j]? = some t' → ∃ e, t'.parse (normText ws s') = .err e) :
    Stable (.union name ws vs) := by
  intro s r hr
  obtain ⟨i, v, t, rfl, h1, h2, h3⟩ := (C07_union_parse name ws vs s r).mp hr
  obtain ⟨s', h4, h5, h6, h7⟩ := h i t _ v h1 h2 (normText_idem ws s) h3
  refine ⟨s', ?_, (C07_union_parse name ws vs s' _).mpr ⟨i, v, t, rfl, h1, h6, h7⟩, fun hb => blank_normText ws s (h5 hb)⟩
  simp only [TextTy.toText, toTextAt_eq, h1, Option.bind_some, h4]

theorem int_rejects_true : (TextTy.int ⟨true, 32⟩).parse "true" = .err .std := rfl
theorem int_rejects_false : (TextTy.int ⟨true, 32⟩).parse "false" = .err .std := rfl

/-- The union of the test suite (`test-suite/tests/basic.rs:69-73`). -/
example : Stable exUnion := by
  refine C45_union_stable _ _ _ ?_
  intro i t s v ht hv hs he
  rcases i with _ | _ | _ | i <;> simp at ht <;> subst ht
  · obtain ⟨s', h1, h2, h3⟩ := C45_int_stable ⟨true, 32⟩ s v hv
    refine ⟨s', h1, h3, ?_, by omega⟩
    simpa [normText, normalized] using h2
  · obtain ⟨s', h1, h2, h3⟩ := C45_bool_stable s v hv
    refine ⟨s', h1, h3, by simpa [normText, normalized] using h2, ?_⟩
    intro j t' hj ht'
    have : j = 0 := by omega
    subst this
    simp at ht'
    subst ht'
    have hb : s' = "true" ∨ s' = "false" := by
      cases v with
      | bool b => cases b <;> simp [TextTy.toText] at h1 <;> simp [← h1]
      | _ => simp [TextTy.toText] at h1
    simp only [normText, normalized, String.ofList_toList]
    rcases hb with rfl | rfl
    · exact ⟨_, int_rejects_true⟩
    · exact ⟨_, int_rejects_false⟩
  · cases hv
    exact ⟨s, rfl, fun h => h, by simp [normText, normalized, TextTy.parse], by rwa [hs]⟩

/-- Not all unions are: here `"1"` is read as the second variant, which is written as `"true"`, which is read as the first. -/
theorem C45_union_counterexample : ¬ Stable (.union "U" .preserve [.restriction "R" .preserve [some "true"], .bool]) := by
  intro h
  have h1 : (TextTy.union "U" .preserve [.restriction "R" .preserve [some "true"], .bool]).parse "1" = .ok (.variant 1 (.bool true)) := rfl
  obtain ⟨s', h2, h3, -⟩ := h _ _ h1
  have : s' = "true" := by
    have h4 : (TextTy.union "U" .preserve [.restriction "R" .preserve [some "true"], .bool]).toText (.variant 1 (.bool true)) = some "true" := rfl
    rw [h4] at h2
    exact (Option.some.inj h2).symm
  subst this
  have h4 : (TextTy.union "U" .preserve [.restriction "R" .preserve [some "true"], .bool]).parse "true" = .ok (.variant 0 (.known 0)) := rfl
  rw [h4] at h3
  cases h3

/-- A value read is of its type (so C31 and C32 apply to it), and can be told apart from others when written. -/
theorem C45_read_good (dbg : Bool) (env : Env) (hok : EnvOk env) (hst : TextsStable env) (hdf : DefaultsOk env) (ty : Ty)
    (hty : ∀ t, ty = .text t → Stable t) (d : Doc) (hd : d.root.TextVisible) (v : Val)
    (h : readTy dbg env ty d.input = .ok (.ok v)) : HasTy env ty v ∧ Readable env ty v :=
  elem_good hst hdf d.root hd hty ((C18_value dbg env hok ty d v).mp h)

/-- C45: what was read from a document can be written, and what is read from the document written is the same value. -/
theorem C45_reread (dbg dbg' dbg'' : Bool) (env : Env) (henv : NamesDeclared env) (hok : EnvOk env) (hfl : FlattenOk env)
    (hst : TextsStable env) (hdf : DefaultsOk env) (ty : Ty) (hty : ∀ t, ty = .text t → Stable t) (name : EName)
    (hn : ElemNsOk (urls (declaredNs env ty)) name) (hc : NoClash env name) (d : Doc) (hd : d.root.TextVisible) (v : Val)
    (h : readTy dbg env ty d.input = .ok (.ok v)) :
    ∃ s, serializeVal dbg' (fun _ _ => none) env name ty v = .ok (s, .ok ()) ∧ (∃ d', ReadsBack s.out d') ∧
      ∀ d', ReadsBack s.out d' → readTy dbg'' env ty d'.input = .ok (.ok v) := by
  obtain ⟨h1, h2⟩ := C45_read_good dbg env hok hst hdf ty hty d hd v h
  exact C35_roundtrip_partial dbg' dbg'' env henv hok hfl name ty hn v h1 (rootPlainFree_of hc h1) h2

theorem blank_append {a b : String} (h : Blank (a ++ b)) : Blank a ∧ Blank b := by
  unfold Blank at *
  simp only [String.toList_append, List.mem_append] at h
  exact ⟨fun c hc => h c (.inl hc), fun c hc => h c (.inr hc)⟩

theorem parsed_visible (f : EForest) : TextVisible (EForest.parsed f) ∧ (Blank (EForest.parsed f).text → (EForest.parsed f).text = "") := by
  induction f with
  | nil => exact ⟨trivial, fun _ => rfl⟩
  | elem n as c rest ih1 ih2 => exact ⟨⟨ih1.2, ih1.1, ih2.1⟩, ih2.2⟩
  | chars s rest ih =>
    unfold EForest.parsed
    split
    · exact ih
    · rename_i hs
      exact ⟨ih.1, fun hb => absurd (blank_append hb).1 hs⟩

/-- C45, exactly: the values that can be read from documents (without text that is blank, which the parser reports only from CDATA
sections) are the `Readable` values of the type. -/
theorem C45_range (dbg : Bool) (env : Env) (hok : EnvOk env) (hfl : FlattenOk env) (hst : TextsStable env) (hdf : DefaultsOk env) (ty : Ty)
    (hty : ∀ t, ty = .text t → Stable t) (v : Val) :
    (∃ d : Doc, d.root.TextVisible ∧ readTy dbg env ty d.input = .ok (.ok v)) ↔ HasTy env ty v ∧ Readable env ty v := by
  constructor
  · rintro ⟨d, hd, h⟩
    exact C45_read_good dbg env hok hst hdf ty hty d hd v h
  · rintro ⟨h1, h2⟩
    obtain ⟨as, g, h⟩ := represents_exists h1 { ns := "", loc := "root" }
    refine ⟨{ startPos := ⟨0, 0⟩, prolog := [], epilog := [], eofPos := ⟨0, 0⟩, epilogOk := by simp
              root := { name := { loc := "root", ns := none, pfx := none }
                        attrs := as.map fun a => { name := { loc := a.1.loc, ns := some a.1.ns, pfx := none }, value := a.2 }
                        ns := [], pos := ⟨0, 0⟩, children := EForest.parsed g, endPos := ⟨0, 0⟩ } },
      ⟨(parsed_visible g).2, (parsed_visible g).1⟩, ?_⟩
    rw [C18_value dbg env hok]
    exact (root_value_iff hok hfl h h1 _ (attrs_parsed as) (denotes_parsed g)).mpr h2

/-! The hypotheses are met by the types of `ExR`. -/
namespace ExR
open ExS (nd nx nn str book bookFields libFields libName fine)

theorem one_stable : TextsStable one where
  elems := by
    intro i f s t hf hk ht
    simp only [one, env] at hf
    split at hf <;> simp only [libFields, bookFields, twoFields, optFields, List.mem_cons, List.not_mem_nil, or_false] at hf
    · rcases hf with rfl | rfl | rfl | rfl | rfl | rfl <;> simp at hk <;> subst hk <;> simp at ht <;> subst ht
      · exact C45_string_stable
      · exact C45_string_stable
    · rcases hf with rfl | rfl <;> simp at hk <;> subst hk <;> simp at ht <;> subst ht
      exact C45_bool_stable
    · rcases hf with rfl | rfl <;> simp at hk
    · rcases hf with rfl | rfl <;> simp at hk <;> subst hk <;> simp at ht <;> subst ht
      · exact C45_bool_stable
      · exact C45_string_stable
  attrs := by
    intro i f o t hf hk
    simp only [one, env] at hf
    split at hf <;> simp only [libFields, bookFields, twoFields, optFields, List.mem_cons, List.not_mem_nil, or_false] at hf
    · rcases hf with rfl | rfl | rfl | rfl | rfl | rfl <;> simp at hk
      · rw [← hk.2]; exact C45_string_stable
      · rw [← hk.2]; exact C45_string_stable
    all_goals rcases hf with rfl | rfl <;> simp at hk
  variants := by
    intro i w s t hw hs ht
    simp only [one, env] at hw
    split at hw <;> simp only [kinds, List.mem_cons, List.not_mem_nil, or_false] at hw
    all_goals rcases hw with rfl | rfl <;> simp at hs
    subst hs
    simp at ht

theorem one_defaults : DefaultsOk one where
  elems := by
    intro i f s d hf hk hd
    simp only [one, env] at hf
    split at hf <;> simp only [libFields, bookFields, twoFields, optFields, List.mem_cons, List.not_mem_nil, or_false] at hf
    · rcases hf with rfl | rfl | rfl | rfl | rfl | rfl <;> simp at hd
    · rcases hf with rfl | rfl <;> simp at hd
    · rcases hf with rfl | rfl <;> simp at hd
    · rcases hf with rfl | rfl <;> simp at hd
      subst hd
      simp at hk
      subst hk
      refine ⟨⟨_, rfl⟩, ?_⟩
      simp only [valuesOf, List.mem_singleton, forall_eq]
      exact ⟨.text rfl, .text (s := "true") rfl rfl⟩
  attrs := by
    intro i f o t d hf hk hd
    simp only [one, env] at hf
    split at hf <;> simp only [libFields, bookFields, twoFields, optFields, List.mem_cons, List.not_mem_nil, or_false] at hf
    · rcases hf with rfl | rfl | rfl | rfl | rfl | rfl <;> simp at hd
    all_goals rcases hf with rfl | rfl <;> simp at hk

/-- `<Opt xmlns="urn:x"> <s>hi</s> <!-- no o --> </Opt>` and `<Opt xmlns="urn:x"><s/><o> 0 </o></Opt>`. -/
def optDoc (children : Forest) : Doc :=
  { startPos := ⟨0, 0⟩, prolog := [], epilog := [], eofPos := ⟨2, 0⟩, epilogOk := by simp
    root := { name := { loc := "Opt", ns := some "urn:x", pfx := none }, attrs := [], ns := [("", "urn:x")], pos := ⟨1, 0⟩, endPos := ⟨1, 9⟩, children } }
def inX (loc : String) (children rest : Forest) : Forest :=
  .elem { loc, ns := some "urn:x", pfx := none } [] [("", "urn:x")] ⟨1, 1⟩ children ⟨1, 2⟩ rest

def hiDoc : Doc := optDoc (.misc (.whitespace " ") ⟨1, 5⟩ (inX "s" (.chars "hi" false ⟨1, 6⟩ .nil) (.misc (.comment "no o") ⟨1, 7⟩ .nil)))
def zeroDoc : Doc := optDoc (inX "s" .nil (inX "o" (.chars " 0 " false ⟨1, 6⟩ .nil) .nil))

end ExR

example : ∃ s, serializeVal true (fun _ _ => none) ExR.one { ns := "urn:x", loc := "Opt" } (.strct 3)
      (.strct [.opt (some (.text (.bool false))), .text (.str "")]) = .ok (s, .ok ()) ∧ (∃ d', ReadsBack s.out d') ∧
    ∀ d', ReadsBack s.out d' → readTy true ExR.one (.strct 3) d'.input = .ok (.ok (.strct [.opt (some (.text (.bool false))), .text (.str "")])) :=
  C45_reread true true true ExR.one ExR.one_declared ExR.one_ok ExR.one_flatten ExR.one_stable ExR.one_defaults (.strct 3) (by simp) _
    (.inr (.inl (by simp [urls, declaredNs, ExR.one, ExR.env]))) (.inr ⟨ExR.one_named, by decide⟩) ExR.zeroDoc
    (by simp only [Elem.TextVisible, TextVisible, ExR.zeroDoc, ExR.optDoc, ExR.inX, Forest.text]; decide) _ rfl

example : readTy true ExR.one (.strct 3) ExR.hiDoc.input = .ok (.ok (.strct [.opt (some (.text (.bool true))), .text (.str "hi")])) ∧
    ExR.hiDoc.root.TextVisible :=
  ⟨rfl, by simp only [Elem.TextVisible, TextVisible, ExR.hiDoc, ExR.optDoc, ExR.inX, Forest.text]; decide⟩

/-- Blank text in a CDATA section is read as such, but not read back once written, as the parser then drops it: the condition on the
document is needed. -/
theorem C45_blank_counterexample : ∃ d : Doc, ∃ v, readTy true ExR.one (.strct 3) d.input = .ok (.ok v) ∧ HasTy ExR.one (.strct 3) v ∧
    ¬ Readable ExR.one (.strct 3) v := by
  refine ⟨ExR.optDoc (ExR.inX "s" (.chars " " true ⟨1, 6⟩ .nil) .nil), .strct [.opt (some (.text (.bool true))), .text (.str " ")], rfl, ?_, ?_⟩
  · refine .strct rfl ?_ ?_ ?_
    · intro p f v hf hv
      rcases p with _ | _ | p <;> simp [ExR.one, ExR.env, ExR.optFields] at hf hv <;> subst hf <;> subst hv <;> simp [Shape, CardOk]
    · intro p f s v w hf hv hk hw
      rcases p with _ | _ | p <;> simp [ExR.one, ExR.env, ExR.optFields] at hf hv <;> subst hf <;> subst hv <;> simp at hk <;> subst hk <;>
        simp [valuesOf] at hw <;> subst hw <;> exact .text rfl
    · intro p f e v hf hv hk
      rcases p with _ | _ | p <;> simp [ExR.one, ExR.env, ExR.optFields] at hf hv <;> subst hf <;> simp at hk
  · intro h
    cases h with
    | strct len attrs card elems flats =>
      have := elems 1 _ _ _ (.text (.str " ")) rfl rfl rfl (by simp [valuesOf])
      cases this with
      | text hs hp =>
        simp only [TextTy.toText, Option.some.injEq] at hs
        subst hs
        have hv : visible " " = "" := if_pos (by decide)
        rw [hv] at hp
        simp [TextTy.parse] at hp

example := C45_range true ExR.one ExR.one_ok ExR.one_flatten ExR.one_stable ExR.one_defaults (.strct 3) (by simp)

end SX
