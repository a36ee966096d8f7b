import Verif.Model.Reader

/-
The displayed forms of errors (`static-xml/src/de/mod.rs`).
-/
namespace SX

/-- Texts made outside of the crate: `{:?}` of a string, the message of a std parse error, `{:#?}` of an xml-rs event.  (The model keeps
neither which std error nor which event it was.) -/
structure Ext where
  debug : String → String
  std : String
  event : String

/-- Lower-case hexadecimal digits (std `LowerHex`). -/
def hexDigits (n : Nat) : List Char :=
  if n < 16 then [(if n < 10 then Char.ofNat (48 + n) else Char.ofNat (87 + n))]
  else hexDigits (n / 16) ++ [(if n % 16 < 10 then Char.ofNat (48 + n % 16) else Char.ofNat (87 + n % 16))]
termination_by n

/-- `{:4x}` (std): at least four characters, numbers to the right. -/
def hex4 (n : Nat) : List Char := List.replicate (4 - (hexDigits n).length) ' ' ++ hexDigits n

/-- xml-rs: `Display for TextPosition`; positions are shown counted from 1. -/
def Pos.display (p : Pos) : List Char := natDigits (p.row + 1) ++ ':' :: natDigits (p.col + 1)

/-- xml-rs: `Name::repr_display`. -/
def QName.repr (n : QName) : List Char :=
  match n.pfx with
  | some p => p.toList ++ ':' :: n.loc.toList
  | none => n.loc.toList

/-- xml-rs: `Display for Name`. -/
def QName.display (n : QName) : String :=
  (match n.ns with | some u => "{" ++ u ++ "}" | none => "") ++ (match n.pfx with | some p => p ++ ":" | none => "") ++ n.loc

mutual
/-- `de/mod.rs:114-126,1032`: the messages of `ParseText::parse`. -/
def TErr.display (x : Ext) : TErr → String
  | .invalidBool t => "invalid bool " ++ x.debug t
  | .std => x.std
  | .noSuchVariant e t => "no such " ++ e ++ " variant " ++ x.debug t
  | .union n es => "all " ++ n ++ " union variants failed to parse:" ++ TErr.displayAll x es
/-- `de/mod.rs:116-118`: one line per variant. -/
def TErr.displayAll (x : Ext) : List TErr → String
  | [] => ""
  | e :: es => "\n* " ++ e.display x ++ TErr.displayAll x es
end

/-- `de/mod.rs:38-84`: the messages of derived deserializers. -/
def DErr.display (x : Ext) : DErr → String
  | .missingElement n => "Missing expected element " ++ n.display
  | .missingAttribute n => "Missing expected attribute " ++ n.display
  | .duplicateAttribute n => "Duplicate attribute " ++ n.display
  | .duplicateElement n => "Duplicate element " ++ n.display
  | .unexpectedElement n after => "Got unexpected element " ++ n.display ++ " after " ++ after.display
  | .cantBeEmpty ty => ty ++ " can't be empty"
  | .text e => e.display x
  | .user m => m

/-- `de/mod.rs:314,337,357,624`. -/
def Msg.display (x : Ext) : Msg → String
  | .expectedStartDocument => "expected StartDocument, got " ++ x.event
  | .expectedStartElement => "expected StartElement, got " ++ x.event
  | .expectedEndDocument => "expected EndDocument, got " ++ x.event
  | .elementInString n => "Unexpected element " ++ n.display ++ " in string"

/-- `de/mod.rs:233-241`: `Display for ErrorKind`. -/
def ErrKind.display (x : Ext) : ErrKind → String
  | .xml e => e.msg
  | .deserializer e => e.display x
  | .msg m => m.display x

/-- `de/mod.rs:194-201`: the line for the element number `i` of the stack. -/
def stackLine (i : Nat) (e : StackElem) : List Char := hex4 i ++ ": <".toList ++ e.name.repr ++ "> @ ".toList ++ e.pos.display ++ ['\n']

/-- `de/mod.rs:188-206`: `Display for Error`, as a list of characters. -/
def Error.display (x : Ext) (e : Error) : List Char :=
  (e.kind.display x).toList ++ " @ ".toList ++ e.pos.display ++
    if e.stack.isEmpty then []
    else "\n\nXML element stack:\n".toList ++ (e.stack.zipIdx.reverse.flatMap fun y => stackLine y.2 y.1)

end SX
