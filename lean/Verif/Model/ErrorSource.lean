import Verif.Model.Reader

/-
What an error of reading gives as its cause (`static-xml/src/de/mod.rs:208-212,243-258`).
-/
namespace SX

/-- The values behind the `dyn std::error::Error` that `source` returns: an error of xml-rs, one of the errors inside it, or the boxed error of an
implementation. -/
inductive Source where
  | xml (e : XmlErr)
  | io (e : String)
  | utf8 (e : String)
  | deserializer (e : DErr)
  deriving Repr

/-- `de/mod.rs:243-258`: `source` of `ErrorKind`. -/
def ErrKind.source : ErrKind → Option Source
  | .xml e =>
    match e.kind with
    | .syntax => some (.xml e)
    | .io io => some (.io io)
    | .utf8 utf => some (.utf8 utf)
    | .unexpectedEof => some (.xml e)
  | .deserializer e => some (.deserializer e)
  | .msg _ => none

/-- `de/mod.rs:208-212`: `source` of `Error`. -/
def Error.source (e : Error) : Option Source := e.kind.source

end SX
