import Verif.Model.OpenSer
import Verif.Model.Open

/-
Writing once more (`static-xml/src/ser/mod.rs:65-255,494-571,691-717`), with panics: those of the crate itself (names that cannot be
resolved; the assertion in `insert` in debug builds), those of implementations of `Serialize`, and those of the `io::Write` behind it.
Implementations may catch them (`catch_unwind`) and go on.

A panic unwinds to where it is caught: the handles that were made since are dropped, innermost first.  Here the program is told of a panic right where it
happens, and does the dropping itself.  So it may as well not drop them, which is what it means to catch the panic right there.  Panics
of the program itself need no extra constructor for the same reason.
-/
namespace SX.Unwind
open SX.Open (Ret Lent)

/-- What happens to an event given to xml-rs: written, an error, or a panic of the `io::Write` behind it. -/
inductive Answer where
  | done
  | fails (msg : String)
  | panics

/-- What happens to each event, depending on all that was tried before.  The calls of `xml`'s `EventWriter::write` in `ser/mod.rs:86`. -/
abbrev PSink := List WEvent → WEvent → Answer

/-- `ser/mod.rs:65-70`: `WrappedWriter`.  Not in the code: `tried`, all events given to xml-rs so far; `answers`, the results of those that did
not panic. -/
structure UState where
  w : WState
  tried : List WEvent
  answers : List (Option String)

/-- `ser/mod.rs:82-92`: `write`.  A panic at line 86 leaves `poison` as it is.  (Simplification: nothing is written then.) -/
def UState.write (sink : PSink) (s : UState) (e : WEvent) (asked : Option (EName × List (EName × String))) : UState × Ret SErr Unit :=
  match s.w.poison with
  | some p => ({ s with w := { s.w with steps := s.w.steps ++ [.failed e p] } }, .err p)
  | none =>
    match sink s.tried e with
    | .panics => ({ s with tried := s.tried ++ [e] }, .panic)
    | .fails m => ({ w := { s.w with poison := some (.write m), steps := s.w.steps ++ [.failed e (.write m)] }, tried := s.tried ++ [e],
                     answers := s.answers ++ [some m] }, .err (.write m))
    | .done => ({ w := { s.w with out := s.w.out ++ [e], steps := s.w.steps ++ [.wrote e asked] }, tried := s.tried ++ [e],
                  answers := s.answers ++ [none] }, .ok ())

/-- `ser/mod.rs:94-96`: `poison`. -/
def UState.poisonWith (s : UState) (err : SErr) : UState := { s with w := s.w.poisonWith err }

/-- `ser/mod.rs:161-188`: `ElementBuilder::start`.  Line 162 takes what is in the builder, so that dropping it while unwinding does
nothing. -/
def start (sink : PSink) (b : Builder) (s : UState) : Except Fault (UState × Ret SErr Namespaces) :=
  match b.ns.finalize with
  | .error .panic => .ok (s, .panic)
  | .error f => .error f
  | .ok n =>
    match n.resolveElement b.name with
    | .error .panic => .ok (s, .panic)
    | .error f => .error f
    | .ok q =>
      match resolveAttrs n b.attrs with
      | .error .panic => .ok (s, .panic)
      | .error f => .error f
      | .ok attrs =>
        match s.write sink (.start q attrs n.byPrefix) (some (b.name, b.attrs)) with
        | (s, .ok ()) => .ok (s, .ok n)
        | (s, .err e) => .ok (s, .err e)
        | (s, .panic) => .ok (s, .panic)

/-- Like `AttrProg`; the continuations are told of panics.  `unwind`: a panic leaves `write_attributes`.  Implementations of `Serialize::write_attributes` (`ser/mod.rs:495-497`). -/
inductive UAttr where
  | ret (r : Except SErr Unit)
  | unwind
  | namespace (pfx url : String) (k : Ret Empty Unit → UAttr)
  | attribute (name : EName) (value : String) (k : Ret SErr Unit → UAttr)

/-- Like `Prog`; the continuations are told of panics.  `unwind`: a panic leaves `write_children`, which has dropped its own handles.  Implementations of `Serialize::write_children` (`ser/mod.rs:498-500`). -/
inductive UProg : List Handle → Type where
  | ret (r : Except SErr Unit) : UProg [.writer false]
  | unwind : UProg [.writer false]
  | element {o : Bool} {hs : List Handle} (name : EName) (k : UProg (.builder :: .writer o :: hs)) : UProg (.writer o :: hs)
  | text {o : Bool} {hs : List Handle} (s : String) (k : Ret SErr Unit → UProg (.writer o :: hs)) : UProg (.writer o :: hs)
  | namespace {hs : List Handle} (pfx url : String) (k : Ret Empty Unit → UProg (.builder :: hs)) : UProg (.builder :: hs)
  | attribute {hs : List Handle} (name : EName) (value : String) (k : Ret SErr Unit → UProg (.builder :: hs)) : UProg (.builder :: hs)
  | start {hs : List Handle} (ok : UProg (.writer true :: hs)) (fail : SErr → UProg hs) (panicked : UProg hs) : UProg (.builder :: hs)
  | finish {hs : List Handle} (k : Ret SErr Unit → UProg hs) : UProg (.writer true :: hs)
  | dropBuilder {hs : List Handle} (k : UProg hs) : UProg (.builder :: hs)
  | dropWriter {hs : List Handle} (k : UProg hs) : UProg (.writer true :: hs)
  | forgetBuilder {hs : List Handle} (k : UProg hs) : UProg (.builder :: hs)
  | forgetWriter {hs : List Handle} (k : UProg hs) : UProg (.writer true :: hs)

/-- `ser/mod.rs:120-126`: `ElementBuilder::namespace`.  The assertion (272-276) is before any change. -/
def namespace' (dbg : Bool) (b : Builder) (pfx url : String) : Except Fault (Builder × Ret Empty Unit) :=
  match b.namespace dbg pfx url with
  | .ok b => .ok (b, .ok ())
  | .error .panic => .ok (b, .panic)
  | .error f => .error f

/-- `ser/mod.rs:132-153`: `ElementBuilder::attribute`.  (The `unwrap` never panics, see `C27_calls_total`.) -/
def attribute' (b : Builder) (name : EName) (value : String) : Except Fault (Builder × Ret SErr Unit) :=
  match b.attribute name value with
  | .ok (b, .ok ()) => .ok (b, .ok ())
  | .ok (b, .error e) => .ok (b, .err e)
  | .error .panic => .ok (b, .panic)
  | .error f => .error f

/-- Runs `write_attributes`.  `ser/mod.rs:495-497`. -/
def UAttr.run (dbg : Bool) : UAttr → Builder → Except Fault (Builder × Ret SErr Unit)
  | .ret (.ok ()), b => .ok (b, .ok ())
  | .ret (.error e), b => .ok (b, .err e)
  | .unwind, b => .ok (b, .panic)
  | .namespace p u k, b =>
    match namespace' dbg b p u with
    | .error f => .error f
    | .ok (b, r) => (k r).run dbg b
  | .attribute n v k, b =>
    match attribute' b n v with
    | .error f => .error f
    | .ok (b, r) => (k r).run dbg b

/-- Runs `write_children`: `ser/mod.rs:215-227` (element), 229-235 (text), 237-244 (finish, which takes what is in the writer first, like `start`),
191-199 and 247-255 (drop). -/
def UProg.run (dbg : Bool) (sink : PSink) : {hs : List Handle} → UProg hs → HStates hs → UState → Except Fault (UState × Ret SErr Unit)
  | _, .ret (.ok ()), _, s => .ok (s, .ok ())
  | _, .ret (.error e), _, s => .ok (s, .err e)
  | _, .unwind, _, s => .ok (s, .panic)
  | _, .element (o := o) name k, .cons n rest, s =>
    k.run dbg sink (.cons (h := .builder) (Builder.new name (Namespaces.child n name.ns)) (.cons (h := .writer o) n rest)) s
  | _, .text t k, hs, s =>
    match s.write sink (.chars t) none with
    | (s, r) => (k r).run dbg sink hs s
  | _, .namespace p u k, .cons b rest, s =>
    match namespace' dbg b p u with
    | .error f => .error f
    | .ok (b, r) => (k r).run dbg sink (.cons (h := .builder) b rest) s
  | _, .attribute n v k, .cons b rest, s =>
    match attribute' b n v with
    | .error f => .error f
    | .ok (b, r) => (k r).run dbg sink (.cons (h := .builder) b rest) s
  | _, .start ok fail panicked, .cons b rest, s =>
    match Unwind.start sink b s with
    | .error f => .error f
    | .ok (s, .ok n) => ok.run dbg sink (.cons (h := .writer true) n rest) s
    | .ok (s, .err e) => (fail e).run dbg sink rest s
    | .ok (s, .panic) => panicked.run dbg sink rest s
  | _, .finish k, .cons _ rest, s =>
    match s.write sink .stop none with
    | (s, r) => (k r).run dbg sink rest s
  | _, .dropBuilder k, .cons _ rest, s => k.run dbg sink rest (s.poisonWith .builderDropped)
  | _, .dropWriter k, .cons _ rest, s => k.run dbg sink rest (s.poisonWith .writerDropped)
  | _, .forgetBuilder k, .cons _ rest, s => k.run dbg sink rest s
  | _, .forgetWriter k, .cons _ rest, s => k.run dbg sink rest s

/-- `ser/mod.rs:694-717`: `Serializer::to`.  On `?` and while unwinding the builder or writer is dropped. -/
def serializeTo (dbg : Bool) (sink : PSink) (name : EName) (attrs : UAttr) (children : UProg [.writer false]) :
    Except Fault (UState × Ret SErr Unit) :=
  let s : UState := { w := { out := [], poison := none, steps := [] }, tried := [], answers := [] }
  match attrs.run dbg (Builder.new name []) with
  | .error f => .error f
  | .ok (_, .err e) => .ok (s.poisonWith .builderDropped, .err e)
  | .ok (_, .panic) => .ok (s.poisonWith .builderDropped, .panic)
  | .ok (b, .ok ()) =>
    match Unwind.start sink b s with
    | .error f => .error f
    | .ok (s, .err e) => .ok (s, .err e)
    | .ok (s, .panic) => .ok (s, .panic)
    | .ok (s, .ok n) =>
      match children.run dbg sink (.cons (h := .writer false) n .nil) s with
      | .error f => .error f
      | .ok (s, .err e) => .ok (s.poisonWith .writerDropped, .err e)
      | .ok (s, .panic) => .ok (s.poisonWith .writerDropped, .panic)
      | .ok (s, .ok ()) => .ok (s.write sink .stop none)

/-! ### `SerializeField` -/

/-- What an implementation of `Serialize` (`ser/mod.rs:494-501`) does for a value, panics included. -/
structure USer where
  attrs : UAttr
  children : UProg [.writer false]

/-- `write_attributes(…, &mut builder)` for a builder of one's own; then `k`.  Not in the code: Rust's function call.  Calls such as `ser/mod.rs:539`. -/
def UAttr.embed {hs : List Handle} : UAttr → (Ret SErr Unit → UProg (.builder :: hs)) → UProg (.builder :: hs)
  | .ret (.ok ()), k => k (.ok ())
  | .ret (.error e), k => k (.err e)
  | .unwind, k => k .panic
  | .namespace p u a, k => .namespace p u fun r => (a r).embed k
  | .attribute n v a, k => .attribute n v fun r => (a r).embed k

/-- `f(writer)` followed by `k` with its result.  Not in the code: Rust's function call (see `Open.lend`).  Calls such as `ser/mod.rs:541`. -/
def lend {o : Bool} {hs : List Handle} (k : Ret SErr Unit → UProg (.writer o :: hs)) : {l m : List Handle} → UProg l → Lent o hs l m → UProg m
  | _, _, .ret (.ok ()), .base => k (.ok ())
  | _, _, .ret (.error e), .base => k (.err e)
  | _, _, .ret _, .up _ b => nomatch b
  | _, _, .unwind, .base => k .panic
  | _, _, .unwind, .up _ b => nomatch b
  | _, _, .element name p, .base => .element name (lend k p (.up _ .base))
  | _, _, .element name p, .up _ b => .element name (lend k p (.up _ (.up _ b)))
  | _, _, .text s p, .base => .text s fun r => lend k (p r) .base
  | _, _, .text s p, .up _ b => .text s fun r => lend k (p r) (.up _ b)
  | _, _, .namespace q u p, .up _ b => .namespace q u fun r => lend k (p r) (.up _ b)
  | _, _, .attribute n v p, .up _ b => .attribute n v fun r => lend k (p r) (.up _ b)
  | _, _, .start ok fail panicked, .up _ b => .start (lend k ok (.up _ b)) (fun e => lend k (fail e) b) (lend k panicked b)
  | _, _, .finish p, .up _ b => .finish fun r => lend k (p r) b
  | _, _, .dropBuilder p, .up _ b => .dropBuilder (lend k p b)
  | _, _, .dropWriter p, .up _ b => .dropWriter (lend k p b)
  | _, _, .forgetBuilder p, .up _ b => .forgetBuilder (lend k p b)
  | _, _, .forgetWriter p, .up _ b => .forgetWriter (lend k p b)

/-- `ser/mod.rs:532-545`: `SerializeField::write` for `T: Serialize`; then `k`.  On `?` and while unwinding the builder or writer is dropped. -/
def fieldOne {o : Bool} {hs : List Handle} (v : USer) (name : EName) (k : Ret SErr Unit → UProg (.writer o :: hs)) : UProg (.writer o :: hs) :=
  .element name (v.attrs.embed fun r =>
    match r with
    | .err e => .dropBuilder (k (.err e))
    | .panic => .dropBuilder (k .panic)
    | .ok () => .start
      (lend (fun r =>
        match r with
        | .err e => .dropWriter (k (.err e))
        | .panic => .dropWriter (k .panic)
        | .ok () => .finish k) v.children .base)
      (fun e => k (.err e)) (k .panic))

/-- Not in the code: returning from `write_children` with a result, or unwinding.  `ser/mod.rs:498-500`. -/
def UProg.leave : Ret SErr Unit → UProg [.writer false]
  | .ok () => .ret (.ok ())
  | .err e => .ret (.error e)
  | .panic => .unwind

end SX.Unwind
