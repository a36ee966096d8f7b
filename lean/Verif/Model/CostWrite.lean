import Verif.Model.Cost
import Verif.Model.Writer

/-
Writing once more, with counts of what it does.  The functions are those of `Model/Writer.lean`, from which they differ by the counts only (proved: the theorems `…_value`
of `Proof/CostWrite.lean`).
-/
namespace SX.Cost

/-- What writing takes: elements begun (`ElementWriter::element`, and the root), mappings copied for them from the element around, builders started, prefixes tried for
them, and events given to xml-rs.  Not in the code: counts for `ser/mod.rs:82-444`. -/
structure WTally where
  elements : Nat
  copied : Nat
  starts : Nat
  tried : Nat
  writes : Nat
  deriving DecidableEq, Repr

/-- Nothing done.  Not in the code, as `WTally` (`ser/mod.rs:82-444`). -/
def WTally.zero : WTally := ⟨0, 0, 0, 0, 0⟩

/-- One thing after another.  Not in the code, as `WTally` (`ser/mod.rs:82-444`). -/
def WTally.add (a b : WTally) : WTally :=
  ⟨a.elements + b.elements, a.copied + b.copied, a.starts + b.starts, a.tried + b.tried, a.writes + b.writes⟩

/-- `ser/mod.rs:161-188`: `ElementBuilder::start`. -/
def start (sink : Sink) (b : Builder) (s : WState) : WTally × Except Fault (WState × Except SErr Namespaces) :=
  match finalize b.ns with
  | (t, .error f) => (⟨0, 0, 1, t, 0⟩, .error f)
  | (t, .ok n) =>
    match n.resolveElement b.name with
    | .error f => (⟨0, 0, 1, t, 0⟩, .error f)
    | .ok q =>
      match resolveAttrs n b.attrs with
      | .error f => (⟨0, 0, 1, t, 0⟩, .error f)
      | .ok attrs =>
        match s.write sink (.start q attrs n.byPrefix) (some (b.name, b.attrs)) with
        | (s, .error e) => (⟨0, 0, 1, t, 1⟩, .ok (s, .error e))
        | (s, .ok ()) => (⟨0, 0, 1, t, 1⟩, .ok (s, .ok n))

/-- Runs `write_children`: `ser/mod.rs:215-227` (element; `child`, 362-383, copies each mapping), 229-235 (text), 237-244 (finish), 191-199 and 247-255 (drop). -/
def run (dbg : Bool) (sink : Sink) : {hs : List Handle} → Prog hs → HStates hs → WState → WTally × Except Fault (WState × Except SErr Unit)
  | _, .ret r, _, s => (.zero, .ok (s, r))
  | _, .element (o := o) name k, .cons n rest, s =>
    match run dbg sink k (.cons (h := .builder) (Builder.new name (Namespaces.child n name.ns)) (.cons (h := .writer o) n rest)) s with
    | (t, r) => (.add ⟨1, (Namespaces.byPrefix n).length, 0, 0, 0⟩ t, r)
  | _, .text x k, hs, s =>
    match s.write sink (.chars x) none with
    | (s, r) =>
      match run dbg sink (k r) hs s with
      | (t, r) => (.add ⟨0, 0, 0, 0, 1⟩ t, r)
  | _, .namespace p u k, .cons b rest, s =>
    match Builder.namespace dbg b p u with
    | .error f => (.zero, .error f)
    | .ok b => run dbg sink k (.cons (h := .builder) b rest) s
  | _, .attribute n v k, .cons b rest, s =>
    match Builder.attribute b n v with
    | .error f => (.zero, .error f)
    | .ok (b, r) => run dbg sink (k r) (.cons (h := .builder) b rest) s
  | _, .start ok fail, .cons b rest, s =>
    match start sink b s with
    | (t, .error f) => (t, .error f)
    | (t, .ok (s, .ok n)) =>
      match run dbg sink ok (.cons (h := .writer true) n rest) s with
      | (t', r) => (t.add t', r)
    | (t, .ok (s, .error e)) =>
      match run dbg sink (fail e) rest s with
      | (t', r) => (t.add t', r)
  | _, .finish k, .cons _ rest, s =>
    match s.write sink .stop none with
    | (s, r) =>
      match run dbg sink (k r) rest s with
      | (t, r) => (.add ⟨0, 0, 0, 0, 1⟩ t, r)
  | _, .dropBuilder k, .cons _ rest, s => run dbg sink k rest (s.poisonWith .builderDropped)
  | _, .dropWriter k, .cons _ rest, s => run dbg sink k rest (s.poisonWith .writerDropped)
  | _, .forgetBuilder k, .cons _ rest, s => run dbg sink k rest s
  | _, .forgetWriter k, .cons _ rest, s => run dbg sink k rest s

/-- `ser/mod.rs:694-717`: `Serializer::to`. -/
def serializeTo (dbg : Bool) (sink : Sink) (name : EName) (attrs : AttrProg) (children : Prog [.writer false]) :
    WTally × Except Fault (WState × Except SErr Unit) :=
  let s : WState := { out := [], poison := none, steps := [] }
  let one : WTally := ⟨1, 0, 0, 0, 0⟩
  match attrs.run dbg (Builder.new name []) with
  | .error f => (one, .error f)
  | .ok (_, .error e) => (one, .ok (s.poisonWith .builderDropped, .error e))
  | .ok (b, .ok ()) =>
    match start sink b s with
    | (t, .error f) => (one.add t, .error f)
    | (t, .ok (s, .error e)) => (one.add t, .ok (s, .error e))
    | (t, .ok (s, .ok n)) =>
      match run dbg sink children (.cons (h := .writer false) n .nil) s with
      | (t', .error f) => ((one.add t).add t', .error f)
      | (t', .ok (s, .error e)) => ((one.add t).add t', .ok (s.poisonWith .writerDropped, .error e))
      | (t', .ok (s, .ok ())) => (((one.add t).add t').add ⟨0, 0, 0, 0, 1⟩, .ok (s.write sink .stop none))

end SX.Cost
