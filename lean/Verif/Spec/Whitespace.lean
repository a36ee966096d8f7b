/-
Specification of XML Schema white space normalization on characters, independent of the model.
-/
namespace SX.Spec

/-- XML white space characters: TAB, LF, CR, SPACE. -/
def isWs (c : Char) : Bool := c = '\t' ∨ c = '\n' ∨ c = '\r' ∨ c = ' '

/-- The maximal runs of elements that are not white space, in order. -/
def words {α : Type} (ws : α → Bool) (l : List α) : List (List α) :=
  match h : l.dropWhile ws with
  | [] => []
  | c :: r => (c :: r.takeWhile (fun x => !ws x)) :: words ws (r.dropWhile (fun x => !ws x))
termination_by l.length
decreasing_by
  have h1 : (l.dropWhile ws).length ≤ l.length := (List.dropWhile_suffix ws).length_le
  have h2 : (r.dropWhile (fun x => !ws x)).length ≤ r.length := (List.dropWhile_suffix _).length_le
  rw [h] at h1; simp at h1; omega

/-- `replace`: every white space character becomes a space. -/
def replaceWs (s : List Char) : List Char := s.map (fun c => if isWs c then ' ' else c)

/-- `collapse`: the words joined by single spaces. -/
def collapseWs (s : List Char) : List Char := List.intercalate [' '] (words isWs s)

/-- The bytes of a string: the concatenated UTF-8 encodings of its characters. -/
def utf8 (s : List Char) : List UInt8 := s.flatMap String.utf8EncodeChar

end SX.Spec
