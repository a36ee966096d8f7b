import Verif.Model.Namespaces

/-
Model of the serializer's writer: `static-xml/src/ser/mod.rs:16-255,664-727`.

The parts of xml-rs behind it are abstracted: an event either is written or fails, in any pattern
(`Sink`).
-/
namespace SX

/-- `ser/mod.rs:22-55`: `Error`; the text of each is fixed by the constructor.  `user`: one made by a
`Serialize` implementation. -/
inductive SErr where
  | duplicateAttribute (name : EName) (old new : String)
  | write (msg : String)
  | builderDropped
  | writerDropped
  | user (msg : String)
  deriving DecidableEq, Repr

/-- `xml::writer::XmlEvent` (xml-rs), those used here.  `ns`: the mappings that are to be in force in the element. -/
inductive WEvent where
  | start (name : WName) (attrs : List (WName × String)) (ns : SMap String)
  | chars (s : String)
  | stop
  deriving DecidableEq, Repr

/-- What happens to a write: `sink before e = some m` if writing `e` after `before` fails with message `m`.  The calls of `xml`'s `EventWriter::write` in `ser/mod.rs:86`. -/
abbrev Sink := List WEvent → WEvent → Option String

/-- Not in the code: record of what was done to the writer, to state properties about.  `asked`: the names
and values requested from the builder, for a start event.  The calls recorded are those of `ser/mod.rs:119-256`. -/
inductive Step where
  | wrote (e : WEvent) (asked : Option (EName × List (EName × String)))
  | failed (e : WEvent) (err : SErr)
  | abandoned (err : SErr)

/-- `ser/mod.rs:65-70`: `WrappedWriter`; `out`: the events written. -/
structure WState where
  out : List WEvent
  poison : Option SErr
  steps : List Step

/-- `ser/mod.rs:82-92`: `write`. -/
def WState.write (sink : Sink) (s : WState) (e : WEvent) (asked : Option (EName × List (EName × String))) :
    WState × Except SErr Unit :=
  match s.poison with
  | some p => ({ s with steps := s.steps ++ [.failed e p] }, .error p)
  | none =>
    match sink s.out e with
    | some m => ({ s with poison := some (.write m), steps := s.steps ++ [.failed e (.write m)] }, .error (.write m))
    | none => ({ s with out := s.out ++ [e], steps := s.steps ++ [.wrote e asked] }, .ok ())

/-- `ser/mod.rs:94-96`: `poison`. -/
def WState.poisonWith (s : WState) (err : SErr) : WState :=
  { s with poison := some (s.poison.getD err), steps := s.steps ++ [.abandoned err] }

/-- `ser/mod.rs:107-117`: `ElementBuilderInner` (without the reference to the writer). -/
structure Builder where
  name : EName
  ns : NsBuilder
  attrs : List (EName × String)
  seen : List EName

/-- `ser/mod.rs:220-226,706-712`: a new builder. -/
def Builder.new (name : EName) (ns : NsBuilder) : Builder := { name := name, ns := ns, attrs := [], seen := [] }

/-- `ser/mod.rs:120-126`: `ElementBuilder::namespace`. -/
def Builder.namespace (dbg : Bool) (b : Builder) (pfx url : String) : Except Fault Builder :=
  match b.ns.insert dbg pfx url with
  | .error f => .error f
  | .ok ns => .ok { b with ns := ns }

/-- `ser/mod.rs:132-153`: `ElementBuilder::attribute`.  The `unwrap` at 147 panics if the name is not found. -/
def Builder.attribute (b : Builder) (name : EName) (value : String) : Except Fault (Builder × Except SErr Unit) :=
  if b.seen.contains name then
    match b.attrs.find? fun a => a.1 == name with
    | none => .error .panic
    | some old => .ok (b, .error (.duplicateAttribute name old.2 value))
  else
    .ok ({ b with seen := b.seen ++ [name], attrs := b.attrs ++ [(name, value)], ns := b.ns.attribute name.ns }, .ok ())

/-- `ser/mod.rs:170-179`: the attributes of the start event. -/
def resolveAttrs (n : Namespaces) : List (EName × String) → Except Fault (List (WName × String))
  | [] => .ok []
  | (name, v) :: l =>
    match n.resolveAttribute name with
    | .error f => .error f
    | .ok q =>
      match resolveAttrs n l with
      | .error f => .error f
      | .ok l => .ok ((q, v) :: l)

/-- `ser/mod.rs:161-188`: `ElementBuilder::start`.  Success gives the state of the `ElementWriter`. -/
def Builder.start (sink : Sink) (b : Builder) (s : WState) : Except Fault (WState × Except SErr Namespaces) :=
  match b.ns.finalize with
  | .error f => .error f
  | .ok n =>
    match n.resolveElement b.name with
    | .error f => .error f
    | .ok q =>
      match resolveAttrs n b.attrs with
      | .error f => .error f
      | .ok attrs =>
        match s.write sink (.start q attrs n.byPrefix) (some (b.name, b.attrs)) with
        | (s, .error e) => .ok (s, .error e)
        | (s, .ok ()) => .ok (s, .ok n)

/-- What `write_attributes` of a `Serialize` implementation may do with the `&mut ElementBuilder` it gets
(`ser/mod.rs:495`): add mappings and attributes, looking at the results, and return. -/
inductive AttrProg where
  | ret (r : Except SErr Unit)
  | namespace (pfx url : String) (k : AttrProg)
  | attribute (name : EName) (value : String) (k : Except SErr Unit → AttrProg)

/-- The handles a `write_children` implementation may hold at a time: the writer it was given (`writer false`, always
the outermost), and builders and writers of its own for nested elements.  Only the innermost is usable, as each
mutably borrows the one around it.  `ser/mod.rs:105,202`. -/
inductive Handle where
  | builder
  | writer (owned : Bool)
  deriving DecidableEq

/-- What `write_children` of a `Serialize` implementation may do (`ser/mod.rs:498`), any sequence of calls the
types allow, looking at the results.  Handles are listed innermost first.  Returning drops all
handles; this is expressed by `drop` before `ret`.
Not covered: exchanging handles with `std::mem::swap`; unwinding caught inside (see `Model/Unwind.lean`). -/
inductive Prog : List Handle → Type where
  /-- `return` -/
  | ret (r : Except SErr Unit) : Prog [.writer false]
  /-- `ElementWriter::element` -/
  | element {o : Bool} {hs : List Handle} (name : EName) (k : Prog (.builder :: .writer o :: hs)) : Prog (.writer o :: hs)
  /-- `ElementWriter::text` -/
  | text {o : Bool} {hs : List Handle} (s : String) (k : Except SErr Unit → Prog (.writer o :: hs)) : Prog (.writer o :: hs)
  /-- `ElementBuilder::namespace` -/
  | namespace {hs : List Handle} (pfx url : String) (k : Prog (.builder :: hs)) : Prog (.builder :: hs)
  /-- `ElementBuilder::attribute` -/
  | attribute {hs : List Handle} (name : EName) (value : String) (k : Except SErr Unit → Prog (.builder :: hs)) :
      Prog (.builder :: hs)
  /-- `ElementBuilder::start`, which consumes the builder -/
  | start {hs : List Handle} (ok : Prog (.writer true :: hs)) (fail : SErr → Prog hs) : Prog (.builder :: hs)
  /-- `ElementWriter::finish`, which consumes the writer -/
  | finish {hs : List Handle} (k : Except SErr Unit → Prog hs) : Prog (.writer true :: hs)
  /-- dropping an `ElementBuilder` -/
  | dropBuilder {hs : List Handle} (k : Prog hs) : Prog (.builder :: hs)
  /-- dropping an `ElementWriter` -/
  | dropWriter {hs : List Handle} (k : Prog hs) : Prog (.writer true :: hs)
  /-- `std::mem::forget` on an `ElementBuilder` -/
  | forgetBuilder {hs : List Handle} (k : Prog hs) : Prog (.builder :: hs)
  /-- `std::mem::forget` on an `ElementWriter` -/
  | forgetWriter {hs : List Handle} (k : Prog hs) : Prog (.writer true :: hs)

/-- The state of a handle.  `ser/mod.rs:107-117,204-207`. -/
def HState : Handle → Type
  | .builder => Builder
  | .writer _ => Namespaces

/-- The states of all handles.  `ser/mod.rs:107-117,204-207`. -/
inductive HStates : List Handle → Type where
  | nil : HStates []
  | cons {h : Handle} {hs : List Handle} (s : HState h) (rest : HStates hs) : HStates (h :: hs)

/-- Runs `write_attributes`.  `ser/mod.rs:495-497`. -/
def AttrProg.run (dbg : Bool) : AttrProg → Builder → Except Fault (Builder × Except SErr Unit)
  | .ret r, b => .ok (b, r)
  | .namespace p u k, b =>
    match b.namespace dbg p u with
    | .error f => .error f
    | .ok b => k.run dbg b
  | .attribute n v k, b =>
    match b.attribute n v with
    | .error f => .error f
    | .ok (b, r) => (k r).run dbg b

/-- Runs `write_children`: `ser/mod.rs:215-227` (element), 229-235 (text), 237-244 (finish), 191-199 and 247-255 (drop). -/
def Prog.run (dbg : Bool) (sink : Sink) : {hs : List Handle} → Prog hs → HStates hs → WState →
    Except Fault (WState × Except SErr Unit)
  | _, .ret r, _, s => .ok (s, r)
  | _, .element (o := o) name k, .cons n rest, s =>
    k.run dbg sink (.cons (h := .builder) (Builder.new name (Namespaces.child n name.ns)) (.cons (h := .writer o) n rest)) s
  | _, .text t k, hs, s =>
    match s.write sink (.chars t) none with
    | (s, r) => (k r).run dbg sink hs s
  | _, .namespace p u k, .cons b rest, s =>
    match Builder.namespace dbg b p u with
    | .error f => .error f
    | .ok b => k.run dbg sink (.cons (h := .builder) b rest) s
  | _, .attribute n v k, .cons b rest, s =>
    match Builder.attribute b n v with
    | .error f => .error f
    | .ok (b, r) => (k r).run dbg sink (.cons (h := .builder) b rest) s
  | _, .start ok fail, .cons b rest, s =>
    match Builder.start sink b s with
    | .error f => .error f
    | .ok (s, .ok n) => ok.run dbg sink (.cons (h := .writer true) n rest) s
    | .ok (s, .error e) => (fail e).run dbg sink rest s
  | _, .finish k, .cons _ rest, s =>
    match s.write sink .stop none with
    | (s, r) => (k r).run dbg sink rest s
  | _, .dropBuilder k, .cons _ rest, s => k.run dbg sink rest (s.poisonWith .builderDropped)
  | _, .dropWriter k, .cons _ rest, s => k.run dbg sink rest (s.poisonWith .writerDropped)
  | _, .forgetBuilder k, .cons _ rest, s => k.run dbg sink rest s
  | _, .forgetWriter k, .cons _ rest, s => k.run dbg sink rest s

/-- `ser/mod.rs:694-717`: `Serializer::to`, for a `Serialize` implementation that does `attrs` and `children`.  On
`?` the builder or writer is dropped. -/
def serializeTo (dbg : Bool) (sink : Sink) (name : EName) (attrs : AttrProg) (children : Prog [.writer false]) :
    Except Fault (WState × Except SErr Unit) :=
  let s : WState := { out := [], poison := none, steps := [] }
  match attrs.run dbg (Builder.new name []) with
  | .error f => .error f
  | .ok (_, .error e) => .ok (s.poisonWith .builderDropped, .error e)
  | .ok (b, .ok ()) =>
    match b.start sink s with
    | .error f => .error f
    | .ok (s, .error e) => .ok (s, .error e)
    | .ok (s, .ok n) =>
      match children.run dbg sink (.cons (h := .writer false) n .nil) s with
      | .error f => .error f
      | .ok (s, .error e) => .ok (s.poisonWith .writerDropped, .error e)
      | .ok (s, .ok ()) => .ok (s.write sink .stop none)

end SX
