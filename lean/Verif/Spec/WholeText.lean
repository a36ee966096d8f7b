import Verif.Model.WholeText
import Verif.Props.Entry

/-
Crates whose text types are declared in order, and the text types that they declare.
-/
namespace SX.Spec.Gen
open SX.Gen

/-- `derive(ParseText)` reports no errors; `code` is what it emits. -/
def AcceptedParse (c : TextCrate) (code : TextEmitted) : Prop :=
  ∀ n d, c.decl n = some d → derive (some d) (deriveParseText (c.fieldTy n)) = .done { errors := [], out := some (code.parse n) }

/-- `derive(ToText)` reports no errors; `code` is what it emits. -/
def AcceptedToText (c : TextCrate) (code : TextEmitted) : Prop :=
  ∀ n d, c.decl n = some d → derive (some d) (deriveToText (c.fieldTy n)) = .done { errors := [], out := some (code.toText n) }

/-- As the compiler demands, the variants of an enum are distinct, and no enum contains itself: types can be ranked so that the types of the fields of
variants come before the enum. -/
structure TextCompiles (c : TextCrate) : Prop where
  idents : ∀ n d, c.decl n = some d → ((variantsOf d).map fun v => v.ident).Nodup
  finite : ∃ rank : String → Nat, ∀ n d, c.decl n = some d → ∀ v ∈ variantsOf d, v.fields = .unnamed 1 →
    rank (c.fieldTy n v.ident) < rank n

/-- The text types of the crate: those of the library, and those that are declared, whose unions are of these types in turn. -/
structure DeclaresText (c : TextCrate) (types : String → TextTy) : Prop where
  library : ∀ n, c.decl n = none → types n = c.library n
  derived : ∀ n d, c.decl n = some d → ∃ t, TextDescribes d t ∧
    types n = textTy types (c.fieldTy n) (c.fromStr n) (c.toString n) d.ident (variantsOf d) t

end SX.Spec.Gen
