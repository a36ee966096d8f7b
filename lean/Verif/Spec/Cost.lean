import Verif.Model.Cost

/-
What there is to read: how many elements, attributes and texts a stream of events has; and the logarithm.  Uses data types of the model only.
-/
namespace SX.Spec.Cost

/-- Start tags. -/
def elements : List (XEvent × Pos) → Nat
  | [] => 0
  | (.startElement _ _ _, _) :: l => elements l + 1
  | _ :: l => elements l

/-- Attributes of all start tags. -/
def attributes : List (XEvent × Pos) → Nat
  | [] => 0
  | (.startElement _ as _, _) :: l => attributes l + as.length
  | _ :: l => attributes l

/-- Texts and CDATA sections. -/
def texts : List (XEvent × Pos) → Nat
  | [] => 0
  | (.characters _, _) :: l => texts l + 1
  | (.cdata _, _) :: l => texts l + 1
  | _ :: l => texts l

/-- How often `n` can be halved until nothing is left: the number of binary digits of `n`. -/
def digits : Nat → Nat
  | 0 => 0
  | n + 1 => digits ((n + 1) / 2) + 1
decreasing_by omega

/-- How many fields are flattened. -/
def flattened (fs : List Field) : Nat := fs.countP fun f => match f.kind with
  | .flatten _ => true
  | _ => false

/-- Space, tab, line feed, carriage return. -/
def blank (b : UInt8) : Bool := b ∈ [0x20, 0x09, 0x0A, 0x0D]

/-- How many words there are, if before the bytes there is a gap (`true`) or part of a word. -/
def wordsAfter : Bool → List UInt8 → Nat
  | _, [] => 0
  | gap, b :: l => if blank b then wordsAfter true l else (if gap then 1 else 0) + wordsAfter false l

/-- Words: separated by white space. -/
def words (l : List UInt8) : Nat := wordsAfter true l

end SX.Spec.Cost
