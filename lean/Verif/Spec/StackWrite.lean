import Verif.Spec.DeriveSer
import Verif.Model.Writer

/-
How deep the elements of a document nest, and how deep the types nest that it is written for.
-/
namespace SX.Spec

/-- The most elements that are open at a time, when `n` are to begin with. -/
def peak : Nat → List WEvent → Nat
  | n, [] => n
  | n, .start _ _ _ :: l => max n (peak (n + 1) l)
  | n, .stop :: l => max n (peak (n - 1) l)
  | n, .chars _ :: l => peak n l

/-- How many elements are inside each other. -/
def EForest.depth : EForest → Nat
  | .nil => 0
  | .elem _ _ children rest => max (children.depth + 1) rest.depth
  | .chars _ rest => rest.depth

/-- A child of an element of type `ty` can be written with the type `ty'`; skipped variants are not written. -/
inductive Holds (env : Env) : Ty → Ty → Prop where
  | field {i : Nat} {f : Field} {s : Slot} (hf : f ∈ (env.strct i).fields) (hk : f.kind = .element s) : Holds env (.strct i) s.ty
  | variant {i : Nat} {w : Variant} {s : Slot} (hw : w ∈ (env.enm i).variants) (hn : w.skip = false) (hs : w.slot = some s) : Holds env (.enm i) s.ty
  | flatten {i e : Nat} {f : Field} {ty : Ty} (hf : f ∈ (env.strct i).fields) (hk : f.kind = .flatten e) (h : Holds env (.enm e) ty) : Holds env (.strct i) ty

/-- The same for children of children, and so on. -/
inductive HoldsDeep (env : Env) : Ty → Ty → Prop where
  | child {a b : Ty} (h : Holds env a b) : HoldsDeep env a b
  | inside {a b c : Ty} (h : Holds env a b) (h' : HoldsDeep env b c) : HoldsDeep env a c

/-- An implementation at work: what it is going to do, the handles it has, the writer. -/
structure Conf where
  hs : List Handle
  prog : Prog hs
  handles : HStates hs
  state : WState

/-- The next call that an implementation makes has been done. -/
inductive Next (dbg : Bool) (sink : Sink) : Conf → Conf → Prop where
  | element {o : Bool} {hs : List Handle} {name : EName} {k : Prog (.builder :: .writer o :: hs)} {n : HState (.writer o)} {rest : HStates hs} {s : WState} :
      Next dbg sink ⟨_, .element name k, .cons (h := .writer o) n rest, s⟩ ⟨_, k, .cons (h := .builder) (Builder.new name (Namespaces.child n name.ns)) (.cons (h := .writer o) n rest), s⟩
  | text {o : Bool} {hs : List Handle} {t : String} {k : Except SErr Unit → Prog (.writer o :: hs)} {st : HStates (.writer o :: hs)} {s : WState} :
      Next dbg sink ⟨_, .text t k, st, s⟩ ⟨_, k (s.write sink (.chars t) none).2, st, (s.write sink (.chars t) none).1⟩
  | «namespace» {hs : List Handle} {p u : String} {k : Prog (.builder :: hs)} {b b' : HState .builder} {rest : HStates hs} {s : WState} (h : Builder.namespace dbg b p u = .ok b') :
      Next dbg sink ⟨_, .namespace p u k, .cons (h := .builder) b rest, s⟩ ⟨_, k, .cons (h := .builder) b' rest, s⟩
  | «attribute» {hs : List Handle} {n : EName} {v : String} {k : Except SErr Unit → Prog (.builder :: hs)} {b b' : HState .builder} {r : Except SErr Unit} {rest : HStates hs} {s : WState}
      (h : Builder.attribute b n v = .ok (b', r)) : Next dbg sink ⟨_, .attribute n v k, .cons (h := .builder) b rest, s⟩ ⟨_, k r, .cons (h := .builder) b' rest, s⟩
  | started {hs : List Handle} {ok : Prog (.writer true :: hs)} {fail : SErr → Prog hs} {b : HState .builder} {rest : HStates hs} {s s' : WState} {n : HState (.writer true)}
      (h : Builder.start sink b s = .ok (s', .ok n)) : Next dbg sink ⟨_, .start ok fail, .cons (h := .builder) b rest, s⟩ ⟨_, ok, .cons (h := .writer true) n rest, s'⟩
  | notStarted {hs : List Handle} {ok : Prog (.writer true :: hs)} {fail : SErr → Prog hs} {b : HState .builder} {rest : HStates hs} {s s' : WState} {e : SErr}
      (h : Builder.start sink b s = .ok (s', .error e)) : Next dbg sink ⟨_, .start ok fail, .cons (h := .builder) b rest, s⟩ ⟨_, fail e, rest, s'⟩
  | finish {hs : List Handle} {k : Except SErr Unit → Prog hs} {n : HState (.writer true)} {rest : HStates hs} {s : WState} :
      Next dbg sink ⟨_, .finish k, .cons (h := .writer true) n rest, s⟩ ⟨_, k (s.write sink .stop none).2, rest, (s.write sink .stop none).1⟩
  | dropBuilder {hs : List Handle} {k : Prog hs} {b : HState .builder} {rest : HStates hs} {s : WState} :
      Next dbg sink ⟨_, .dropBuilder k, .cons (h := .builder) b rest, s⟩ ⟨_, k, rest, s.poisonWith .builderDropped⟩
  | dropWriter {hs : List Handle} {k : Prog hs} {n : HState (.writer true)} {rest : HStates hs} {s : WState} :
      Next dbg sink ⟨_, .dropWriter k, .cons (h := .writer true) n rest, s⟩ ⟨_, k, rest, s.poisonWith .writerDropped⟩
  | forgetBuilder {hs : List Handle} {k : Prog hs} {b : HState .builder} {rest : HStates hs} {s : WState} :
      Next dbg sink ⟨_, .forgetBuilder k, .cons (h := .builder) b rest, s⟩ ⟨_, k, rest, s⟩
  | forgetWriter {hs : List Handle} {k : Prog hs} {n : HState (.writer true)} {rest : HStates hs} {s : WState} :
      Next dbg sink ⟨_, .forgetWriter k, .cons (h := .writer true) n rest, s⟩ ⟨_, k, rest, s⟩

/-- After some calls. -/
inductive Comes (dbg : Bool) (sink : Sink) : Conf → Conf → Prop where
  | refl (c : Conf) : Comes dbg sink c c
  | next {a b c : Conf} (h : Next dbg sink a b) (h' : Comes dbg sink b c) : Comes dbg sink a c

end SX.Spec
