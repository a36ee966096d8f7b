import Verif.Model.Reader
import Verif.Model.Open

/-
Reading once more (`static-xml/src/de/mod.rs:264-269,307-341,504-639`), with implementations that panic, and implementations that catch the panics of child reads
(`catch_unwind`) and go on.

A panic unwinds through `read_to`, which has no handlers; nothing is done to the reader.
(Simplification: panics of the crate itself, which are failed assertions in debug builds and impossible in release builds (C12), and those of xml-rs and
of the `io::Read` behind it are not caught: the former are faults here as in `Model/Reader.lean`, the latter do not happen.)
-/
namespace SX.UnwindDe
open SX.Open (Ret)

/-- Like `SX.Action`, where continuations are told of panics.  The methods are those of `de/mod.rs:546-655`. -/
inductive PAction (σ ρ : Type) where
  | done (r : ρ)
  | readString (k : Except VErr String → ρ)
  | readTo (sub : σ) (k : σ → Ret VErr ReadToOk → ρ)

/-- `de/mod.rs:777-820`: `ElementVisitor`, as `SX.Visitor`; every method may panic. -/
structure PVisitor (σ : Type) where
  onAttr : σ → EName → String → σ × Ret VErr Unit
  onChars : σ → String → Pos → σ × Ret DErr Unit
  onElem : σ → ElemInfo → PAction σ (σ × Ret VErr Unit)

/-- `de/mod.rs:559-565`: the attribute loop of `read_to`. -/
def visitAttrs {σ : Type} (V : PVisitor σ) (stack : List StackElem) (pos : Pos) : List XAttr → σ → σ × Ret VErr Unit
  | [], v => (v, .ok ())
  | a :: as, v =>
    match V.onAttr v a.name.expanded a.value with
    | (v, .err e) => (v, .err (.propagate (e.toError stack pos)))
    | (v, .panic) => (v, .panic)
    | (v, .ok ()) => visitAttrs V stack pos as v

/-- `de/mod.rs:566-602`: the event loop of `read_to`, and `read_to` of children, as `SX.readLoop`. -/
def readLoop {σ : Type} (dbg : Bool) (V : PVisitor σ) :
    Nat → ElemReader → σ → RState → Except Fault (σ × Ret VErr ReadToOk × RState)
  | 0, _, _, _ => .error .fuel
  | fuel + 1, er, v, s =>
    if dbg && er.stackPos + 1 != s.stack.length then .error .panic
    else match next dbg s with
    | .error f => .error f
    | .ok (.error e, s) => .ok (v, .err (.propagate e), s)
    | .ok (.ok (.end_ name, pos), s) => .ok (v, .ok (name, er.ns, pos), s)
    | .ok (.ok (.chars str, pos), s) =>
      match V.onChars v str pos with
      | (v, .err e) => .ok (v, .err (.propagate { kind := .deserializer e, stack := s.stack, pos }), s)
      | (v, .panic) => .ok (v, .panic, s)
      | (v, .ok ()) => readLoop dbg V fuel er v s
    | .ok (.ok (.start attrs ns, pos), s) =>
      let child : ElemReader := { ns, attrs, stackPos := er.stackPos + 1 }
      match s.stack[child.stackPos]? with
      | none => .error .panic
      | some elem =>
        let r : Except Fault ((σ × Ret VErr Unit) × RState) :=
          match V.onElem v { name := elem.name, ns, depth := child.stackPos + 1 } with
          | .done r => .ok (r, s)
          | .readString k =>
            match readString dbg child fuel "" s with
            | .error f => .error f
            | .ok (r, s) => .ok (k r, s)
          | .readTo sub k =>
            match visitAttrs V s.stack elem.pos attrs sub with
            | (sub, .err e) => .ok (k sub (.err e), s)
            | (sub, .panic) => .ok (k sub .panic, s)
            | (sub, .ok ()) =>
              match readLoop dbg V fuel child sub s with
              | .error f => .error f
              | .ok (sub, r, s) => .ok (k sub r, s)
        match r with
        | .error f => .error f
        | .ok ((v, .err e), s) => .ok (v, .err (.propagate (e.toError s.stack pos)), s)
        | .ok ((v, .panic), s) => .ok (v, .panic, s)
        | .ok ((v, .ok ()), s) =>
          match returnToDepth dbg (er.stackPos + 1) s with
          | .error f => .error f
          | .ok (.error e, s) => .ok (v, .err (.propagate e), s)
          | .ok (.ok (), s) => readLoop dbg V fuel er v s

/-- `de/mod.rs:546-603`: `read_to` of the element `er`. -/
def readTo {σ : Type} (dbg : Bool) (V : PVisitor σ) (fuel : Nat) (er : ElemReader) (v : σ) (s : RState) :
    Except Fault (σ × Ret VErr ReadToOk × RState) :=
  match s.stack[er.stackPos]? with
  | none => .error .panic
  | some elem =>
    match visitAttrs V s.stack elem.pos er.attrs v with
    | (v, .err e) => .ok (v, .err e, s)
    | (v, .panic) => .ok (v, .panic, s)
    | (v, .ok ()) => readLoop dbg V fuel er v s

/-- `Deserialize::deserialize` (`de/mod.rs:667-669`): what an implementation does with the element. -/
abbrev PDeser (σ α : Type) := ElemInfo → PAction σ (Ret VErr α)

/-- Runs an implementation on an element: `T::deserialize(element)`.  `de/mod.rs:267,668`. -/
def runDeser {σ α : Type} (dbg : Bool) (V : PVisitor σ) (D : PDeser σ α) (fuel : Nat) (er : ElemReader)
    (s : RState) : Except Fault (Ret VErr α × RState) :=
  match s.stack[er.stackPos]? with
  | none => .error .panic
  | some elem =>
    match D { name := elem.name, ns := er.ns, depth := er.stackPos + 1 } with
    | .done r => .ok (r, s)
    | .readString k =>
      match readString dbg er fuel "" s with
      | .error f => .error f
      | .ok (r, s) => .ok (k r, s)
    | .readTo sub k =>
      match readTo dbg V fuel er sub s with
      | .error f => .error f
      | .ok (sub, r, s) => .ok (k sub r, s)

/-- `de/mod.rs:264-269`: `read` (and `from_str`, 278-280). -/
def read {σ α : Type} (dbg : Bool) (V : PVisitor σ) (D : PDeser σ α) (input : Input) : Except Fault (Ret Error α) :=
  match root dbg input.start with
  | .error f => .error f
  | .ok (.error e, _) => .ok (.err e)
  | .ok (.ok er, s) =>
    match runDeser dbg V D (s.inner.items.length + 1) er s with
    | .error f => .error f
    | .ok (.panic, _) => .ok .panic
    | .ok (.err e, s) => .ok (.err (e.toError s.stack s.inner.pos))
    | .ok (.ok a, s) =>
      match endDoc dbg s with
      | .error f => .error f
      | .ok (.error e) => .ok (.err e)
      | .ok (.ok ()) => .ok (.ok a)

end SX.UnwindDe
