import Verif.Model.Display
import Verif.Model.Writer

/-
The messages of `ser::Error` (`static-xml/src/ser/mod.rs`).
-/
namespace SX

/-- Derived `Debug` (std) of `ExpandedNameRef` (`lib.rs:472-476`). -/
def EName.debug (x : Ext) (n : EName) : String :=
  "ExpandedNameRef { namespace: " ++ x.debug n.ns ++ ", local_name: " ++ x.debug n.loc ++ " }"

/-- The errors the crate makes when serializing: the constructors of `ser::Error` (`ser/mod.rs:25-54`) and the errors of `Drop`
(`ser/mod.rs:191-199,247-255`). -/
inductive SerCause where
  | duplicateElement (expected : EName)
  | missingAttribute (expected : EName)
  | missingElement (expected : EName)
  | missingText
  | duplicateMapping (pfx old new : String)
  | duplicateAttribute (name : EName) (old new : String)
  | builderDropped
  | writerDropped
  deriving DecidableEq, Repr

/-- `ser/mod.rs:25-54,196,252`, and `Display for Error` (58-62), which shows the string as it is. -/
def SerCause.message (x : Ext) : SerCause → String
  | .duplicateElement n => "duplicate element " ++ n.display
  | .missingAttribute n => "missing expected attribute " ++ n.display
  | .missingElement n => "missing expected element " ++ n.display
  | .missingText => "missing expected text"
  | .duplicateMapping p old new => "Prefix " ++ x.debug p ++ " is already mapped to " ++ x.debug old ++ ", so can't map to " ++ x.debug new
  | .duplicateAttribute n old new =>
    "Attribute " ++ n.debug x ++ " already has value " ++ x.debug old ++ ", so can't set value " ++ x.debug new
  | .builderDropped => "ElementBuilder dropped before start"
  | .writerDropped => "ElementWriter dropped before finish"

/-- The message of an error of the writer; those of xml-rs and of implementations are what they are (`ser/mod.rs:87,183`). -/
def SErr.message (x : Ext) : SErr → String
  | .duplicateAttribute n old new => SerCause.message x (.duplicateAttribute n old new)
  | .write m => m
  | .builderDropped => SerCause.message x .builderDropped
  | .writerDropped => SerCause.message x .writerDropped
  | .user m => m

end SX
