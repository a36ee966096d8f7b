import Verif.Model.DeriveSer

/-
Model of `Serializer` with its options and of `to_string`: `static-xml/src/ser/mod.rs:666-760`.
-/
namespace SX

/-- `xml::writer::EmitterConfig`, the options that are set in `ser/mod.rs:698-702`; all others are xml-rs's defaults, the same for every writer. -/
structure EmitterConfig where
  performIndent : Bool
  writeDocumentDeclaration : Bool
  deriving DecidableEq, Repr

/-- A `xml::writer::EventWriter` on a `Vec<u8>`, as it is made in `ser/mod.rs:696-703,723-724` (xml-rs, not in the repository): which events fail, and the bytes there are once these
events have been written.  Arbitrary here. -/
structure Emitter where
  sink : Sink
  bytes : List WEvent → ByteArray

/-- `xml::writer::EventWriter::new_with_config` as called in `ser/mod.rs:696-703` (xml-rs, not in the repository).  Arbitrary here. -/
abbrev NewEmitter := EmitterConfig → Emitter

/-- `ser/mod.rs:666-671`: `Serializer`.  The `&dyn Serialize` is what its two methods do (`attrs`, `children`). -/
structure Serializer where
  attrs : AttrProg
  children : Prog [.writer false]
  name : EName
  indent : Bool
  declaration : Bool

/-- `ser/mod.rs:749-759`: `serialize_with_name`.  (`serialize`, `ser/mod.rs:734-741`, is this with the name that `SerializeRoot::root` gives, `rootName`.) -/
def serializeWithName (attrs : AttrProg) (children : Prog [.writer false]) (name : EName) : Serializer :=
  { attrs := attrs, children := children, name := name, indent := false, declaration := true }

/-- `ser/mod.rs:676-681`: `Serializer::perform_indent`. -/
def Serializer.performIndent (z : Serializer) (b : Bool) : Serializer := { z with indent := b }

/-- `ser/mod.rs:686-691`: `Serializer::write_document_declaration`. -/
def Serializer.writeDocumentDeclaration (z : Serializer) (b : Bool) : Serializer := { z with declaration := b }

/-- `ser/mod.rs:694-717`: `Serializer::to`, for a writer of bytes made by `new`. -/
def Serializer.to (dbg : Bool) (new : NewEmitter) (z : Serializer) : Except Fault (WState × Except SErr Unit) :=
  serializeTo dbg (new { performIndent := z.indent, writeDocumentDeclaration := z.declaration }).sink z.name z.attrs z.children

/-- `ser/mod.rs:720-726`: `Serializer::to_string`; the `expect` panics. -/
def Serializer.toString (dbg : Bool) (new : NewEmitter) (z : Serializer) : Except Fault (Except SErr String) :=
  match z.to dbg new with
  | .error f => .error f
  | .ok (_, .error e) => .ok (.error e)
  | .ok (s, .ok ()) =>
    match String.fromUTF8? ((new { performIndent := z.indent, writeDocumentDeclaration := z.declaration }).bytes s.out) with
    | none => .error .panic
    | some str => .ok (.ok str)

end SX
