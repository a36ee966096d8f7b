import Verif.Model.Entry
import Verif.Model.GenText

/-
The text types of a crate that uses `derive(ParseText)` and `derive(ToText)`, as a whole: the implementations of all of them, which refer to each
other.
-/
namespace SX.Gen

/-- The text types of a crate, by their names: those with a declaration have derived implementations, the others are of the library.  With the types
of the fields of variants as they are written in the declarations, and `FromStr` and `ToString` of types of mode `std` (`parse.rs:100-109`,
`to_text.rs:69-77`). -/
structure TextCrate where
  decl : String → Option Decl
  library : String → TextTy
  fieldTy : String → String → String
  fromStr : String → String → Option Nat
  toString : String → Nat → String

/-- The emitted code (`parse.rs:122-147`, `to_text.rs:79-104`). -/
structure TextEmitted where
  parse : String → ParseCode
  toText : String → ToTextCode

/-- A value of a declared type; variants are numbered as declared.  The values made in `parse.rs:42,74,79,104`. -/
def tvalOf (d : Decl) : GTVal → TVal
  | .unit v => .known (((declVariants d).map fun w => w.ident).idxOf v)
  | .text _ s => .unknown s
  | .field v x => .variant (((declVariants d).map fun w => w.ident).idxOf v) x
  | .opaque n => .opaque n

/-- The result of `parse`, with the value so written.  `parse.rs:50,87,102`. -/
def tvalResult (d : Decl) : Res TErr GTVal → Res TErr TVal
  | .ok v => .ok (tvalOf d v)
  | .err e => .err e
  | .fault f => .fault f

/-- `ParseText::parse` for all types: of types of the library as in `Model/Text.lean`, of declared types the emitted code, where
`<#ty as ParseText>::parse` (`parse.rs:37`) refers to these implementations. -/
structure TextCrate.Parses (c : TextCrate) (code : TextEmitted) (parse : String → String → Res TErr TVal) : Prop where
  library : ∀ n, c.decl n = none → ∀ text, parse n text = (c.library n).parse text
  derived : ∀ n d, c.decl n = some d → ∀ text, parse n text = tvalResult d ((code.parse n).run parse (c.fromStr n) text)

/-- `ToText::to_text` for all types, likewise (`to_text.rs:27`).  (Of values that some arm of the `match` is for; Rust has no others.) -/
structure TextCrate.Prints (c : TextCrate) (code : TextEmitted) (toText : String → TVal → Option String) : Prop where
  library : ∀ n, c.decl n = none → ∀ v, toText n v = (c.library n).toText v
  derived : ∀ n d, c.decl n = some d → ∀ g text, (code.toText n).run toText (c.fieldTy n) (c.toString n) g = some text →
    toText n (tvalOf d g) = some text

end SX.Gen
