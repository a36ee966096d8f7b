import Verif.Model.Writer

/-
How many builders and writers there are at a time when writing.  Each borrows from the one below it, so each is in a stack frame of its own caller:
this is how deep the calls of `SerializeField::write` nest.
-/
namespace SX.Stack

/-- The number of handles.  `ser/mod.rs:107-117,204-207`. -/
abbrev here {hs : List Handle} (_ : HStates hs) : Nat := hs.length

/-- `Prog.run` (`ser/mod.rs:105-255`), counting the `ElementBuilder`s and `ElementWriter`s that are there at a time: the most there are. -/
def live (dbg : Bool) (sink : Sink) : {hs : List Handle} → Prog hs → HStates hs → WState → Nat
  | _, .ret _, st, _ => here st
  | _, .element (o := o) name k, .cons n rest, s =>
    max (here rest + 1) (live dbg sink k (.cons (h := .builder) (Builder.new name (Namespaces.child n name.ns)) (.cons (h := .writer o) n rest)) s)
  | _, .text t k, st, s =>
    match s.write sink (.chars t) none with
    | (s, r) => max (here st) (live dbg sink (k r) st s)
  | _, .namespace p u k, .cons b rest, s =>
    match Builder.namespace dbg b p u with
    | .error _ => here rest + 1
    | .ok b => max (here rest + 1) (live dbg sink k (.cons (h := .builder) b rest) s)
  | _, .attribute n v k, .cons b rest, s =>
    match Builder.attribute b n v with
    | .error _ => here rest + 1
    | .ok (b, r) => max (here rest + 1) (live dbg sink (k r) (.cons (h := .builder) b rest) s)
  | _, .start ok fail, .cons b rest, s =>
    match Builder.start sink b s with
    | .error _ => here rest + 1
    | .ok (s, .ok n) => max (here rest + 1) (live dbg sink ok (.cons (h := .writer true) n rest) s)
    | .ok (s, .error e) => max (here rest + 1) (live dbg sink (fail e) rest s)
  | _, .finish k, .cons _ rest, s =>
    match s.write sink .stop none with
    | (s, r) => max (here rest + 1) (live dbg sink (k r) rest s)
  | _, .dropBuilder k, .cons _ rest, s => max (here rest + 1) (live dbg sink k rest (s.poisonWith .builderDropped))
  | _, .dropWriter k, .cons _ rest, s => max (here rest + 1) (live dbg sink k rest (s.poisonWith .writerDropped))
  | _, .forgetBuilder k, .cons _ rest, s => max (here rest + 1) (live dbg sink k rest s)
  | _, .forgetWriter k, .cons _ rest, s => max (here rest + 1) (live dbg sink k rest s)

/-- `Serializer::to` (`ser/mod.rs:694-717`), counted: there is a builder for the root, then its writer. -/
def liveTo (dbg : Bool) (sink : Sink) (name : EName) (attrs : AttrProg) (children : Prog [.writer false]) : Nat :=
  match attrs.run dbg (Builder.new name []) with
  | .error _ => 1
  | .ok (_, .error _) => 1
  | .ok (b, .ok ()) =>
    match b.start sink { out := [], poison := none, steps := [] } with
    | .error _ => 1
    | .ok (_, .error _) => 1
    | .ok (s, .ok n) => max 1 (live dbg sink children (.cons (h := .writer false) n .nil) s)

end SX.Stack
