import Verif.Model.Names
import Verif.Model.Text

/-
The event reader: `static-xml/src/de/mod.rs:28-639`.

xml-rs (`xml::reader::EventReader`) is outside the repository; only its interface is modelled: `next`
yields a finite sequence of events, each with the position reported afterwards, and then the same final
result (end of document, or an error) forever.
-/
namespace SX

/-- `xml::common::TextPosition`.  Of the crate `xml`; used in `de/mod.rs:11,24,364-366`. -/
structure Pos where
  row : Nat
  col : Nat
  deriving DecidableEq, Repr

/-- `xml::attribute::OwnedAttribute`.  Of the crate `xml`; used in `de/mod.rs:377`. -/
structure XAttr where
  name : QName
  value : String
  deriving DecidableEq, Repr

/-- `xml::namespace::Namespace`: the mappings in scope (prefix, URI).  Of the crate `xml`; used in `de/mod.rs:378,523-525`. -/
abbrev NsMap := List (String × String)

/-- Comments, processing instructions and whitespace events: events that `next` skips.  `de/mod.rs:422-466`. -/
inductive Misc where
  | comment (s : String)
  | pi (name : String) (data : Option String)
  | whitespace (s : String)
  deriving DecidableEq, Repr

/-- `xml::reader::XmlEvent`, except `EndDocument` (see `Final`).  Of the crate `xml`; used in `de/mod.rs:307-362,422-466`. -/
inductive XEvent where
  | startDocument
  | startElement (name : QName) (attrs : List XAttr) (ns : NsMap)
  | endElement (name : QName)
  | characters (s : String)
  | cdata (s : String)
  | misc (m : Misc)
  deriving DecidableEq, Repr

/-- `xml::reader::ErrorKind`, with the errors inside as opaque values.  Of the crate `xml`; used in `de/mod.rs:245-256`. -/
inductive XmlKind where
  | «syntax»
  | io (e : String)
  | utf8 (e : String)
  | unexpectedEof
  deriving DecidableEq, Repr

/-- `xml::reader::Error` without its position (see `Final`): what `msg()` and `kind()` give.  Of the crate `xml`; used in `de/mod.rs:162-169,233-241`. -/
structure XmlErr where
  msg : String
  kind : XmlKind
  deriving DecidableEq, Repr

/-- A syntax error, given by its message (for examples; the kind is the one of `de/mod.rs:249`). -/
instance : Coe String XmlErr := ⟨fun msg => { msg, kind := .syntax }⟩

/-- The result xml-rs gives after the last event, again and again: end of document, or an error with the
position it carries. -/
inductive Final where
  | eof
  | err (e : XmlErr) (epos : Pos)
  deriving DecidableEq, Repr

/-- `xml::reader::EventReader` as seen by the crate: current position, events to come with the position
reported after each, final result with the position reported after it.  Used in `de/mod.rs:284,298`. -/
structure Inner where
  pos : Pos
  items : List (XEvent × Pos)
  final : Final
  finalPos : Pos
  deriving DecidableEq, Repr

/-- `de/mod.rs:19-25`: `StackElement`. -/
structure StackElem where
  name : QName
  pos : Pos
  deriving DecidableEq, Repr

/-- Errors boxed as `BoxedStdError` by the crate (`de/mod.rs:38-84,100-132`), kept structured instead of
formatted.  `user` stands for any error of a hand-written implementation. -/
inductive DErr where
  | missingElement (n : EName)
  | missingAttribute (n : EName)
  | duplicateAttribute (n : EName)
  | duplicateElement (n : EName)
  | unexpectedElement (n after : EName)
  | cantBeEmpty (ty : String)
  | text (e : TErr)
  | user (msg : String)
  deriving Repr

/-- The messages built with `Error::msg` (`de/mod.rs:311-315,334-338,354-358,621-625`). -/
inductive Msg where
  | expectedStartDocument
  | expectedStartElement
  | expectedEndDocument
  | elementInString (name : QName)
  deriving DecidableEq, Repr

/-- `de/mod.rs:223-231`: `ErrorKind`. -/
inductive ErrKind where
  | xml (e : XmlErr)
  | deserializer (e : DErr)
  | msg (m : Msg)
  deriving Repr

/-- `de/mod.rs:152,216-220`: `Error`/`ErrorInner`. -/
structure Error where
  kind : ErrKind
  stack : List StackElem
  pos : Pos
  deriving Repr

/-- `de/mod.rs:33-36`: `VisitorError`. -/
inductive VErr where
  | propagate (e : Error)
  | wrap (e : DErr)
  deriving Repr

/-- `de/mod.rs:86-91`: `VisitorError::wrap`. -/
def VErr.toError (stack : List StackElem) (pos : Pos) : VErr → Error
  | .propagate e => e
  | .wrap e => { kind := .deserializer e, stack, pos }

/-- `de/mod.rs:283-293`: `Reader`. -/
structure RState where
  inner : Inner
  depth : Nat
  stack : List StackElem
  deriving DecidableEq, Repr

/-- `de/mod.rs:371-387`: `Event`. -/
inductive Event where
  | start (attrs : List XAttr) (ns : NsMap)
  | end_ (name : QName)
  | chars (s : String)
  deriving DecidableEq, Repr

/-- Result of a reader method: a fault, or a `Result` together with the reader state after it.  E.g. `de/mod.rs:404,413`. -/
abbrev Out (ε α : Type) := Except Fault (Except ε α × RState)

/-- The loop of `next` (`de/mod.rs:427-465`) over the events to come.  `EndDocument` there means looping
forever.  `depth -= 1` at depth 0 is a panic in debug builds and wraps in release builds; it is a fault
here in both.  `dbg` says whether `debug_assert`s are compiled in. -/
def nextLoop (dbg : Bool) (final : Final) (finalPos : Pos) (depth : Nat) (stack : List StackElem) :
    List (XEvent × Pos) → Out Error (Event × Pos)
  | [] =>
    match final with
    | .eof => .error .diverge
    | .err m p => .ok (.error { kind := .xml m, stack, pos := p },
        { inner := { pos := finalPos, items := [], final, finalPos }, depth, stack })
  | (e, pos) :: rest =>
    let inner : Inner := { pos, items := rest, final, finalPos }
    match e with
    | .startElement name attrs ns =>
      .ok (.ok (.start attrs ns, pos), { inner, depth := depth + 1, stack := stack ++ [{ name, pos }] })
    | .endElement name =>
      match depth with
      | 0 => .error .panic
      | d + 1 =>
        if dbg && (stack[d]?.map StackElem.name != some name) then .error .panic
        else .ok (.ok (.end_ name, pos), { inner, depth := d, stack })
    | .characters s => .ok (.ok (.chars s, pos), { inner, depth, stack })
    | .cdata s => .ok (.ok (.chars s, pos), { inner, depth, stack })
    | .misc _ => nextLoop dbg final finalPos depth stack rest
    | .startDocument => nextLoop dbg final finalPos depth stack rest

/-- `de/mod.rs:422-466`: `next`. -/
def next (dbg : Bool) (s : RState) : Out Error (Event × Pos) :=
  if dbg && s.stack.length != s.depth then .error .panic
  else nextLoop dbg s.inner.final s.inner.finalPos s.depth s.stack s.inner.items

/-- The `while` loop of `return_to_depth` (`de/mod.rs:475-480`). -/
def skipLoop (dbg : Bool) (target : Nat) : Nat → RState → Out Error Unit
  | 0, _ => .error .fuel
  | fuel + 1, s =>
    if s.depth > target then
      match next dbg s with
      | .error f => .error f
      | .ok (.error e, s) => .ok (.error e, s)
      | .ok (.ok _, s) => skipLoop dbg target fuel { s with stack := s.stack.take s.depth }
    else .ok (.ok (), { s with stack := s.stack.take s.depth })

/-- `de/mod.rs:468-481`: `return_to_depth`. -/
def returnToDepth (dbg : Bool) (target : Nat) (s : RState) : Out Error Unit :=
  if dbg && s.depth < target then .error .panic
  else skipLoop dbg target (s.inner.items.length + 1) s

/-- What a `Deserialize` implementation or visitor can see of an element before reading it:
`de/mod.rs:514-539` (`name`, `namespace`, `depth`; the attributes have no accessor). -/
structure ElemInfo where
  name : QName
  ns : NsMap
  depth : Nat
  deriving DecidableEq, Repr

/-- `de/mod.rs:504-509`: `ElementReader` without the reference to the reader. -/
structure ElemReader where
  ns : NsMap
  attrs : List XAttr
  stackPos : Nat
  deriving DecidableEq, Repr

/-- What `read_to` returns on success (`de/mod.rs:550-554`). -/
abbrev ReadToOk := QName × NsMap × Pos

/-- What an implementation does with an `ElementReader` it is given: nothing (drop it, or hand it back);
`read_string`; or `read_to` with some visitor in state `sub`.  Each of the two consumes the reader, so
there is at most one such call.  `k` is the rest of the implementation: it gets the result (and the final
state of the sub-visitor).  The methods are those of `de/mod.rs:546-655`; the implementations are those of `de/mod.rs:667-669,799-804`. -/
inductive Action (σ ρ : Type) where
  | done (r : ρ)
  | readString (k : Except VErr String → ρ)
  | readTo (sub : σ) (k : σ → Except VErr ReadToOk → ρ)

/-- `de/mod.rs:777-820`: `ElementVisitor`.  All visitors of a run share one state type (take a sum).  What
`attribute`, `characters` and `element` give back to flattening callers (`Some` of their argument or
`None`) is ignored by `read_to` and left out here. -/
structure Visitor (σ : Type) where
  onAttr : σ → EName → String → Except Fault (σ × Except VErr Unit)
  onChars : σ → String → Pos → Except Fault (σ × Except DErr Unit)
  onElem : σ → ElemInfo → Action σ (Except Fault (σ × Except VErr Unit))

/-- `de/mod.rs:559-565`: the attribute loop of `read_to`. -/
def visitAttrs {σ : Type} (V : Visitor σ) (stack : List StackElem) (pos : Pos) :
    List XAttr → σ → Except Fault (σ × Except VErr Unit)
  | [], v => .ok (v, .ok ())
  | a :: as, v =>
    match V.onAttr v a.name.expanded a.value with
    | .error f => .error f
    | .ok (v, .error e) => .ok (v, .error (.propagate (e.toError stack pos)))
    | .ok (v, .ok ()) => visitAttrs V stack pos as v

/-- `de/mod.rs:611-638`: `read_string`. -/
def readString (dbg : Bool) (er : ElemReader) : Nat → String → RState → Out VErr String
  | 0, _, _ => .error .fuel
  | fuel + 1, out, s =>
    if dbg && er.stackPos + 1 != s.stack.length then .error .panic
    else match next dbg s with
    | .error f => .error f
    | .ok (.error e, s) => .ok (.error (.propagate e), s)
    | .ok (.ok (.start _ _, pos), s) =>
      match s.stack.getLast? with
      | none => .error .panic
      | some child => .ok (.error (.propagate
          { kind := .msg (.elementInString child.name), stack := s.stack, pos }), s)
    | .ok (.ok (.end_ _, _), s) => .ok (.ok out, s)
    | .ok (.ok (.chars str, _), s) => readString dbg er fuel (if out.isEmpty then str else out ++ str) s

/-- `de/mod.rs:566-602`: the event loop of `read_to`, and (inside it) `read_to` of children
(`de/mod.rs:557-565`).  `fuel` bounds the number of events read. -/
def readLoop {σ : Type} (dbg : Bool) (V : Visitor σ) :
    Nat → ElemReader → σ → RState → Except Fault (σ × Except VErr ReadToOk × RState)
  | 0, _, _, _ => .error .fuel
  | fuel + 1, er, v, s =>
    if dbg && er.stackPos + 1 != s.stack.length then .error .panic
    else match next dbg s with
    | .error f => .error f
    | .ok (.error e, s) => .ok (v, .error (.propagate e), s)
    | .ok (.ok (.end_ name, pos), s) => .ok (v, .ok (name, er.ns, pos), s)
    | .ok (.ok (.chars str, pos), s) =>
      match V.onChars v str pos with
      | .error f => .error f
      | .ok (v, .error e) =>
        .ok (v, .error (.propagate { kind := .deserializer e, stack := s.stack, pos }), s)
      | .ok (v, .ok ()) => readLoop dbg V fuel er v s
    | .ok (.ok (.start attrs ns, pos), s) =>
      let child : ElemReader := { ns, attrs, stackPos := er.stackPos + 1 }
      -- `child.name()` reads `stack[stack_pos]` (`de/mod.rs:515`)
      match s.stack[child.stackPos]? with
      | none => .error .panic
      | some elem =>
        let info : ElemInfo := { name := elem.name, ns, depth := child.stackPos + 1 }
        -- `visitor.element(child)`
        let r : Except Fault ((Except Fault (σ × Except VErr Unit)) × RState) :=
          match V.onElem v info with
          | .done r => .ok (r, s)
          | .readString k =>
            match readString dbg child fuel "" s with
            | .error f => .error f
            | .ok (r, s) => .ok (k r, s)
          | .readTo sub k =>
            match visitAttrs V s.stack elem.pos attrs sub with
            | .error f => .error f
            | .ok (sub, .error e) => .ok (k sub (.error e), s)
            | .ok (sub, .ok ()) =>
              match readLoop dbg V fuel child sub s with
              | .error f => .error f
              | .ok (sub, r, s) => .ok (k sub r, s)
        match r with
        | .error f => .error f
        | .ok (.error f, _) => .error f
        | .ok (.ok (v, .error e), s) => .ok (v, .error (.propagate (e.toError s.stack pos)), s)
        | .ok (.ok (v, .ok ()), s) =>
          match returnToDepth dbg (er.stackPos + 1) s with
          | .error f => .error f
          | .ok (.error e, s) => .ok (v, .error (.propagate e), s)
          | .ok (.ok (), s) => readLoop dbg V fuel er v s

/-- `de/mod.rs:546-603`: `read_to` of the element `er`. -/
def readTo {σ : Type} (dbg : Bool) (V : Visitor σ) (fuel : Nat) (er : ElemReader) (v : σ) (s : RState) :
    Except Fault (σ × Except VErr ReadToOk × RState) :=
  match s.stack[er.stackPos]? with
  | none => .error .panic
  | some elem =>
    match visitAttrs V s.stack elem.pos er.attrs v with
    | .error f => .error f
    | .ok (v, .error e) => .ok (v, .error e, s)
    | .ok (v, .ok ()) => readLoop dbg V fuel er v s

/-- `de/mod.rs:307-341`: `root`. -/
def root (dbg : Bool) (s : RState) : Out Error ElemReader :=
  match s.inner.items with
  | [] =>
    match s.inner.final with
    | .eof => .ok (.error { kind := .msg .expectedStartDocument, stack := [], pos := s.inner.finalPos },
        { s with inner := { s.inner with pos := s.inner.finalPos } })
    | .err m p => .ok (.error { kind := .xml m, stack := [], pos := p },
        { s with inner := { s.inner with pos := s.inner.finalPos } })
  | (.startDocument, pos) :: rest =>
    match next dbg { s with inner := { s.inner with pos, items := rest } } with
    | .error f => .error f
    | .ok (.error e, s) => .ok (.error e, s)
    | .ok (.ok (.start attrs ns, _), s) => .ok (.ok { ns, attrs, stackPos := 0 }, s)
    | .ok (.ok (_, pos), s) => .ok (.error { kind := .msg .expectedStartElement, stack := [], pos }, s)
  | (_, pos) :: rest => .ok (.error { kind := .msg .expectedStartDocument, stack := [], pos },
      { s with inner := { s.inner with pos, items := rest } })

/-- The loop of `end` (`de/mod.rs:349-361`). -/
def endLoop (final : Final) (finalPos : Pos) : List (XEvent × Pos) → Except Error Unit
  | [] =>
    match final with
    | .eof => .ok ()
    | .err m p => .error { kind := .xml m, stack := [], pos := p }
  | (.misc (.comment _), _) :: rest => endLoop final finalPos rest
  | (.misc (.pi _ _), _) :: rest => endLoop final finalPos rest
  | (_, pos) :: _ => .error { kind := .msg .expectedEndDocument, stack := [], pos }

/-- `de/mod.rs:344-362`: `end`. -/
def endDoc (dbg : Bool) (s : RState) : Except Fault (Except Error Unit) :=
  match returnToDepth dbg 0 s with
  | .error f => .error f
  | .ok (.error e, _) => .ok (.error e)
  | .ok (.ok (), s) => .ok (endLoop s.inner.final s.inner.finalPos s.inner.items)

/-- `Deserialize::deserialize` (`de/mod.rs:667-669`): what an implementation does with the element. -/
abbrev Deser (σ α : Type) := ElemInfo → Action σ (Except Fault (Except VErr α))

/-- Runs an implementation on an element: `T::deserialize(element)`.  `de/mod.rs:267,668`. -/
def runDeser {σ α : Type} (dbg : Bool) (V : Visitor σ) (D : Deser σ α) (fuel : Nat) (er : ElemReader)
    (s : RState) : Except Fault (Except VErr α × RState) :=
  match s.stack[er.stackPos]? with
  | none => .error .panic
  | some elem =>
    let r : Except Fault ((Except Fault (Except VErr α)) × RState) :=
      match D { name := elem.name, ns := er.ns, depth := er.stackPos + 1 } with
      | .done r => .ok (r, s)
      | .readString k =>
        match readString dbg er fuel "" s with
        | .error f => .error f
        | .ok (r, s) => .ok (k r, s)
      | .readTo sub k =>
        match readTo dbg V fuel er sub s with
        | .error f => .error f
        | .ok (sub, r, s) => .ok (k sub r, s)
    match r with
    | .error f => .error f
    | .ok (.error f, _) => .error f
    | .ok (.ok r, s) => .ok (r, s)

/-- What the crate reads: the events xml-rs produces for the source. -/
structure Input where
  items : List (XEvent × Pos)
  final : Final
  finalPos : Pos
  deriving DecidableEq, Repr

/-- `de/mod.rs:296-302`: `Reader::new`. -/
def Input.start (i : Input) : RState :=
  { inner := { pos := { row := 0, col := 0 }, items := i.items, final := i.final, finalPos := i.finalPos }
    depth := 0, stack := [] }

/-- `de/mod.rs:264-269`: `read` (and `from_str`, 278-280). -/
def read {σ α : Type} (dbg : Bool) (V : Visitor σ) (D : Deser σ α) (input : Input) :
    Except Fault (Except Error α) :=
  match root dbg input.start with
  | .error f => .error f
  | .ok (.error e, _) => .ok (.error e)
  | .ok (.ok er, s) =>
    match runDeser dbg V D (s.inner.items.length + 1) er s with
    | .error f => .error f
    | .ok (.error e, s) => .ok (.error (e.toError s.stack s.inner.pos))
    | .ok (.ok a, s) =>
      match endDoc dbg s with
      | .error f => .error f
      | .ok (.error e) => .ok (.error e)
      | .ok (.ok ()) => .ok (.ok a)

end SX
