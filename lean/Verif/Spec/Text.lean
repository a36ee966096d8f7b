import Verif.Spec.Whitespace

/-! Specification of the lexical spaces of the text types. -/
namespace SX.Spec

/-- `text` is `core` surrounded by XML white space. -/
def Padded (text core : List Char) : Prop :=
  ∃ pre post, text = pre ++ core ++ post ∧ (∀ c ∈ pre, isWs c = true) ∧ (∀ c ∈ post, isWs c = true)

/-- The lexical representations of a boolean. -/
def boolLexical : Bool → List String
  | true => ["true", "1"]
  | false => ["false", "0"]

/-- A decimal digit. -/
def isDecDigit (c : Char) : Prop := c ∈ ['0', '1', '2', '3', '4', '5', '6', '7', '8', '9']

/-- The number written by decimal digits. -/
def decValue (ds : List Char) : Nat := ds.foldl (fun a c => 10 * a + (c.toNat - '0'.toNat)) 0

/-- Decimal integer literals and their values; a minus sign only for signed types. -/
inductive IntLiteral (signed : Bool) : List Char → Int → Prop where
  | plain (ds : List Char) (ne : ds ≠ []) (h : ∀ c ∈ ds, isDecDigit c) : IntLiteral signed ds (decValue ds)
  | plus (ds : List Char) (ne : ds ≠ []) (h : ∀ c ∈ ds, isDecDigit c) : IntLiteral signed ('+' :: ds) (decValue ds)
  | minus (ds : List Char) (ne : ds ≠ []) (h : ∀ c ∈ ds, isDecDigit c) (s : signed = true) :
      IntLiteral signed ('-' :: ds) (-(decValue ds : Int))

/-- Value range of an integer type of `bits` bits. -/
def inRange (signed : Bool) (bits : Nat) (n : Int) : Prop :=
  if signed then -(2 ^ (bits - 1)) ≤ n ∧ n < 2 ^ (bits - 1) else 0 ≤ n ∧ n < 2 ^ bits

end SX.Spec
