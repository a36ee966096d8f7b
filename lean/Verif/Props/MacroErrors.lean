import Verif.Proof.MacroErrors
import Verif.Props.Macro

/-
C56: which errors the macros report.
-/
namespace SX
open Spec

/-- C56: unless they panic, the macros for `Serialize` report exactly the errors in the declaration, one for each wrong place and in the
order of the declaration; and every declaration has exactly one such list of errors. -/
theorem C56_errors (d : Decl) (r : Option Described) (errs : List MErr) (h : describe d = .ok (r, errs)) (es : List MErr) :
    DeclErrors d es ↔ es = errs :=
  ⟨fun h' => declErrors_unique h' (describe_errors h), fun h' => h' ▸ describe_errors h⟩

/-- C56: the same for `Deserialize`. -/
theorem C56_deserialize (d : Decl) (r : Option Described) (errs : List MErr) (h : describeDe d = .ok (r, errs)) (es : List MErr) :
    DeclErrors d es ↔ es = errs := by
  apply C56_errors d r
  unfold describeDe at h
  split at h
  · rename_i he
    split at h
    · simp at h
    · rw [he]; exact h
  · exact h

example := C56_deserialize ExM.library _ _ (rfl : describeDe ExM.library = .ok (some (.strct ExM.libraryIs), []))

/-- C56: the macros for text types. -/
theorem C56_text (d : Decl) (es : List MErr) : TextErrors d es ↔ es = (describeText d).2 :=
  ⟨fun h' => textErrors_unique h' (describeText_errors d), fun h' => h' ▸ describeText_errors d⟩

namespace ExM

/-- Much is wrong here: a prefix mapped twice, a prefix that is not a string, an attribute without a list; then fields with an unknown
prefix given twice, with a word nobody understands, with two modes, and two text fields. -/
def wrong : Decl where
  ident := "A"
  attrs := [.list [kv "namespace" "a: urn:1", kv "default_namespace" " urn:d ", kv "namespace" "a:  urn:2"], .notList,
    .list [.nameValue (some "prefix") .other, kv "namespace" "urn:e"]]
  data := .named [
    { ident := "x", attrs := [.list [kv "prefix" " p ", kv "prefix" "a"]] },
    { ident := "y", attrs := [.foreign, .list [word "text", word "strange"]] },
    { ident := "z", attrs := [.list [word "flatten", word "attribute"], .invalid] },
    { ident := "t", attrs := [.list [word "text", .nameValue (some "rename") .other]] }]

theorem wrong_reported : ∃ r, describe wrong = .ok (r,
    [.expectedList, .reassign "a" "urn:1" "urn:2", .reassign "" "urn:d" "urn:e", .notString, .prefixNotFound "p", .duplicatePrefix "p" "a",
      .notUnderstood, .invalid, .exclusive, .notString, .manyText]) := ⟨_, rfl⟩

example : DeclErrors wrong
    [.expectedList, .reassign "a" "urn:1" "urn:2", .reassign "" "urn:d" "urn:e", .notString, .prefixNotFound "p", .duplicatePrefix "p" "a",
      .notUnderstood, .invalid, .exclusive, .notString, .manyText] := by
  obtain ⟨r, h⟩ := wrong_reported
  exact (C56_errors _ _ _ h _).mpr rfl

/-- A restriction with the mode given twice, a bad `whitespace`, a variant with a value, two variants for other texts. -/
def wrongText : Decl where
  ident := "A"
  attrs := [.list [kv "mode" "enum", kv "mode" "restriction", kv "mode" "union", kv "whitespace" "trim"]]
  data := .enm [
    { ident := "X", attrs := [], fields := .unnamed 1 },
    { ident := "Y", attrs := [.list [word "unknown", kv "rename" "y"]], fields := .unnamed 1 },
    { ident := "Z", attrs := [.list [word "unknown"]], fields := .unit }]

example : TextErrors wrongText [.unknownMode, .redundantMode, .badWhitespace, .knownFields, .unknownRename, .unknownFields, .duplicateUnknown] :=
  (C56_text _ _).mpr rfl

end ExM
end SX
