import Verif.Proof.WholeText
import Verif.Props.Source

/-
C70: the text types of a crate as a whole.
-/
namespace SX
open Gen Spec Spec.Gen

/-- C42: a declaration of a text type in order has one meaning. -/
theorem C42_text_unique (d : Decl) (t t' : TextDescribed) (hok : TextDeclOk d) (h : TextDescribes d t) (h' : TextDescribes d t') : t = t' :=
  textDescribes_unique hok h h'

/-- C70: the declarations of a crate, if they are in order and compile, define text types, and just one for each name. -/
theorem C70_types (c : TextCrate) (hok : ∀ n d, c.decl n = some d → TextDeclOk d) (hc : TextCompiles c) :
    ∃ T, DeclaresText c T ∧ ∀ T', DeclaresText c T' → ∀ n, T' n = T n := by
  obtain ⟨T, hT⟩ := declaresText_exists hok hc
  exact ⟨T, hT, fun T' h' => declaresText_unique hok hc h' hT⟩

/-- C70: what the emitted `parse` of every type of the crate does, where the implementations refer to each other: there is exactly one way, and it is
what the claims about text types say of the type declared. -/
theorem C70_parse (c : TextCrate) (code : TextEmitted) (T : String → TextTy) (ha : AcceptedParse c code) (hc : TextCompiles c)
    (hT : DeclaresText c T) (parse : String → String → Res TErr TVal) :
    c.Parses code parse ↔ ∀ n text, parse n text = (T n).parse text := by
  constructor
  · intro hp
    exact parses_eq ha hc hp (parses_types ha hc hT)
  · intro h
    have : parse = fun n => (T n).parse := funext fun n => funext fun text => h n text
    rw [this]
    exact parses_types ha hc hT

/-- C70: what the emitted `to_text` of every type of the crate does with the values of the type. -/
theorem C70_toText (c : TextCrate) (code : TextEmitted) (T : String → TextTy) (ha : AcceptedToText c code) (hc : TextCompiles c)
    (hT : DeclaresText c T) :
    c.Prints code (fun n => (T n).toText) ∧
      ∀ toText, c.Prints code toText → ∀ n v text, (T n).toText v = some text → toText n v = some text :=
  ⟨prints_types ha hc hT, fun _ hp => prints_of_types ha hc hT hp⟩

/-- C70: no text makes the parsers of a crate panic. -/
theorem C70_total (c : TextCrate) (code : TextEmitted) (ha : AcceptedParse c code) (hc : TextCompiles c)
    (parse : String → String → Res TErr TVal) (hp : c.Parses code parse) (n text : String) :
    (∃ v, parse n text = .ok v) ∨ ∃ e, parse n text = .err e := by
  obtain ⟨T, hT⟩ := declaresText_exists (fun n d hd => (acceptedParse_code ha hd).1) hc
  rw [(C70_parse c code T ha hc hT parse).mp hp]
  cases h : (T n).parse text with
  | ok v => exact .inl ⟨v, rfl⟩
  | err e => exact .inr ⟨e, rfl⟩
  | fault f => exact absurd h (parse_no_fault _ _ _)

/-- C70: what has been written is read back: for values of the type for which that is so of the type declared. -/
theorem C70_roundtrip (c : TextCrate) (code : TextEmitted) (T : String → TextTy) (hap : AcceptedParse c code) (hat : AcceptedToText c code)
    (hc : TextCompiles c) (hT : DeclaresText c T) (parse : String → String → Res TErr TVal) (toText : String → TVal → Option String)
    (hp : c.Parses code parse) (ht : c.Prints code toText) (n : String) (v : TVal) (text : String) (hv : (T n).toText v = some text) :
    toText n v = some text ∧ (parse n text = .ok v ↔ (T n).parse text = .ok v) := by
  refine ⟨(C70_toText c code T hat hc hT).2 toText ht n v text hv, ?_⟩
  rw [(C70_parse c code T hap hc hT parse).mp hp]

namespace ExM

/-- ```
#[static_xml(mode = "union", whitespace = "collapse")]
enum Length { Pixels(i32), Named(Size) }
``` -/
def length : Decl where
  ident := "Length"
  attrs := ExM.attrs [kv "mode" "union", kv "whitespace" "collapse"]
  data := .enm [
    { ident := "Pixels", attrs := [], fields := .unnamed 1 },
    { ident := "Named", attrs := [], fields := .unnamed 1 }]

/-- ```
#[static_xml(mode = "union")]
enum Margin { Auto(bool), Fixed(Length) }
``` -/
def margin : Decl where
  ident := "Margin"
  attrs := ExM.attrs [kv "mode" "union"]
  data := .enm [
    { ident := "Auto", attrs := [], fields := .unnamed 1 },
    { ident := "Fixed", attrs := [], fields := .unnamed 1 }]

/-- `Size`, `Length` and `Margin`, each within the next. -/
def textCrate : TextCrate where
  decl n := if n = "Size" then some size else if n = "Length" then some length else if n = "Margin" then some margin else none
  library n := if n = "bool" then .bool else if n = "i32" then .int ⟨true, 32⟩ else .string
  fieldTy n v := if n = "Length" then (if v = "Pixels" then "i32" else "Size") else if n = "Margin" then (if v = "Auto" then "bool" else "Length") else "String"
  fromStr _ _ := none
  toString _ _ := ""

def textCode : TextEmitted where
  parse n :=
    if n = "Size" then { normalize := some .collapse, body := .restriction [("Small", "Small"), ("very large", "Large")] (.unknown "Other") }
    else if n = "Length" then { normalize := some .collapse, body := .union [("Pixels", "i32"), ("Named", "Size")] "Length" }
    else { normalize := none, body := .union [("Auto", "bool"), ("Fixed", "Length")] "Margin" }
  toText n :=
    if n = "Size" then .arms [.known "Small" "Small", .known "Large" "very large", .unknown "Other"]
    else if n = "Length" then .arms [.field "Pixels", .field "Named"]
    else .arms [.field "Auto", .field "Fixed"]

theorem textCrate_decl {P : String → Decl → Prop} (h1 : P "Size" size) (h2 : P "Length" length) (h3 : P "Margin" margin) :
    ∀ n d, textCrate.decl n = some d → P n d := by
  intro n d h
  simp only [textCrate] at h
  split at h
  · rename_i e; subst e; cases h; exact h1
  · split at h
    · rename_i e; subst e; cases h; exact h2
    · split at h
      · rename_i e; subst e; cases h; exact h3
      · cases h

/-- The macros accept the declarations of the example, and emit this. -/
theorem textCrate_accepted : AcceptedParse textCrate textCode ∧ AcceptedToText textCrate textCode :=
  ⟨textCrate_decl rfl rfl rfl, textCrate_decl rfl rfl rfl⟩

theorem textCrate_compiles : TextCompiles textCrate := by
  refine ⟨textCrate_decl (by decide) (by decide) (by decide), fun n => if n = "Margin" then 3 else if n = "Length" then 2 else if n = "Size" then 1 else 0, ?_⟩
  exact textCrate_decl (by decide) (by decide) (by decide)

/-- A `Margin` is parsed by three parsers within each other. -/
example : ∃ T, DeclaresText textCrate T ∧
    T "Margin" = .union "Margin" .preserve [.bool, .union "Length" .collapse [.int ⟨true, 32⟩, .restriction "Size" .collapse [some "Small", some "very large", none]]] ∧
    ∀ parse, textCrate.Parses textCode parse →
      parse "Margin" " very  large " = .ok (.variant 1 (.variant 1 (.known 1))) ∧ parse "Margin" "true" = .ok (.variant 0 (.bool true)) := by
  have hok : ∀ n d, textCrate.decl n = some d → TextDeclOk d := fun n d hd => (acceptedParse_code textCrate_accepted.1 hd).1
  obtain ⟨T, hT⟩ := declaresText_exists hok textCrate_compiles
  have hS : T "Size" = .restriction "Size" .collapse [some "Small", some "very large", none] := by
    obtain ⟨t, ht, e⟩ := hT.derived "Size" size rfl
    rw [textDescribes_unique (hok "Size" size rfl) ht (C42_text_description size _ rfl)] at e
    exact e
  have hL : T "Length" = .union "Length" .collapse [.int ⟨true, 32⟩, .restriction "Size" .collapse [some "Small", some "very large", none]] := by
    obtain ⟨t, ht, e⟩ := hT.derived "Length" length rfl
    rw [textDescribes_unique (hok "Length" length rfl) ht (C42_text_description length _ rfl)] at e
    rw [e]
    show TextTy.union "Length" .collapse [T "i32", T "Size"] = _
    rw [hS, hT.library "i32" rfl]
    rfl
  have hM : T "Margin" = .union "Margin" .preserve [.bool, .union "Length" .collapse [.int ⟨true, 32⟩, .restriction "Size" .collapse [some "Small", some "very large", none]]] := by
    obtain ⟨t, ht, e⟩ := hT.derived "Margin" margin rfl
    rw [textDescribes_unique (hok "Margin" margin rfl) ht (C42_text_description margin _ rfl)] at e
    rw [e]
    show TextTy.union "Margin" .preserve [T "bool", T "Length"] = _
    rw [hL, hT.library "bool" rfl]
    rfl
  refine ⟨T, hT, hM, fun parse hp => ?_⟩
  have := (C70_parse textCrate textCode T textCrate_accepted.1 textCrate_compiles hT parse).mp hp
  have hw : normText .collapse " very  large " = "very large" := by
    simp [normText, normalized, collapseWs, words_cons_ws, words_cons_not, words_nil, isWs, List.intercalate]
  have hw' : normText .collapse "very large" = "very large" := by
    simp [normText, normalized, collapseWs, words_cons_ws, words_cons_not, words_nil, isWs, List.intercalate]
  have hp : ∀ s, normText .preserve s = s := fun s => by simp [normText, normalized]
  have hr : ∀ (ws : WhiteSpace) (vs : List (Option String)) (s : String), parseRestriction "Size" ws vs s =
      match matchKnown (normText ws s) vs 0 with
      | some i => .ok (.known i)
      | none => if vs.contains none then .ok (.unknown (normText ws s)) else .err (.noSuchVariant "Size" (normText ws s)) := by
    intro ws vs s
    exact parse_normalize ws s _
  rw [this, this, hM]
  simp only [TextTy.parse, parse_normalize, TextTy.parseVariants, hp, hw, hr, hw']
  exact ⟨rfl, rfl⟩

end ExM

/-- The hypotheses of the other theorems, for the same crate. -/
theorem ExM.textCrate_ok : ∀ n d, ExM.textCrate.decl n = some d → TextDeclOk d := fun _ _ hd => (acceptedParse_code ExM.textCrate_accepted.1 hd).1

example (t : TextDescribed) (h : TextDescribes ExM.size t) : t = .restriction .collapse [some "Small", some "very large", none] :=
  C42_text_unique ExM.size t _ (ExM.textCrate_ok "Size" _ rfl) h (C42_text_description ExM.size _ rfl)
example := C70_types ExM.textCrate ExM.textCrate_ok ExM.textCrate_compiles
example (parse : String → String → Res TErr TVal) (hp : ExM.textCrate.Parses ExM.textCode parse) :=
  C70_total ExM.textCrate ExM.textCode ExM.textCrate_accepted.1 ExM.textCrate_compiles parse hp "Margin" " very  large "

/-- `very large` is the text of a `Size`. -/
example (T : String → TextTy) (hT : DeclaresText ExM.textCrate T) (parse : String → String → Res TErr TVal) (toText : String → TVal → Option String)
    (hp : ExM.textCrate.Parses ExM.textCode parse) (ht : ExM.textCrate.Prints ExM.textCode toText) : toText "Size" (.known 1) = some "very large" := by
  have hS : T "Size" = .restriction "Size" .collapse [some "Small", some "very large", none] := by
    obtain ⟨t, ht, e⟩ := hT.derived "Size" ExM.size rfl
    rw [textDescribes_unique (ExM.textCrate_ok "Size" ExM.size rfl) ht (C42_text_description ExM.size _ rfl)] at e
    exact e
  exact (C70_roundtrip ExM.textCrate ExM.textCode T ExM.textCrate_accepted.1 ExM.textCrate_accepted.2 ExM.textCrate_compiles hT parse toText hp ht "Size"
    (.known 1) "very large" (by rw [hS]; rfl)).1

end SX
