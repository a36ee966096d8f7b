import Verif.Model.Reader
import Verif.Spec.Text

/-
What displayed errors look like.
-/
namespace SX.Spec

/-- The hexadecimal digits, by value. -/
def hexChars : List Char := "0123456789abcdef".toList

/-- The number written by hexadecimal digits. -/
def hexValue (ds : List Char) : Nat := ds.foldl (fun a c => 16 * a + hexChars.idxOf c) 0

/-- A number in hexadecimal, without leading zeros. -/
structure IsHex (n : Nat) (ds : List Char) : Prop where
  nonempty : ds ≠ []
  digits : ∀ c ∈ ds, c ∈ hexChars
  value : hexValue ds = n
  short : ds.head? = some '0' → ds = ['0']

/-- A number in decimal. -/
structure IsDec (n : Nat) (ds : List Char) : Prop where
  nonempty : ds ≠ []
  digits : ∀ c ∈ ds, isDecDigit c
  value : decValue ds = n

/-- Line and column, counted from 1. -/
def PosText (p : Pos) (s : List Char) : Prop := ∃ a b, s = a ++ ':' :: b ∧ IsDec (p.row + 1) a ∧ IsDec (p.col + 1) b

/-- A tag's name as in the document. -/
def TagText (n : QName) (s : List Char) : Prop :=
  (n.pfx = none ∧ s = n.loc.toList) ∨ ∃ p, n.pfx = some p ∧ s = p.toList ++ [':'] ++ n.loc.toList

/-- The line for an element: its depth in at least four columns, its tag's name, its position. -/
def StackText (depth : Nat) (e : StackElem) (l : List Char) : Prop :=
  ∃ k num tag pos, l = List.replicate k ' ' ++ num ++ ": <".toList ++ tag ++ "> @ ".toList ++ pos ∧ IsHex depth num ∧
    k + num.length = max 4 num.length ∧ TagText e.name tag ∧ PosText e.pos pos

/-- No line breaks in a name. -/
def OneLine (n : QName) : Prop := '\n' ∉ n.loc.toList ∧ ∀ p, n.pfx = some p → '\n' ∉ p.toList

/-- No spaces in a name. -/
def NoSpaces (n : EName) : Prop := ' ' ∉ n.ns.toList ∧ ' ' ∉ n.loc.toList

end SX.Spec
