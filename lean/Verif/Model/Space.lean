import Verif.Model.Reader

/-
How much is held while reading: the functions of `Model/Reader.lean` that hold visitors or text, once more, each with the most that is held at a time.  What a visitor holds is
given by a measure on its state.  `Proof/Space.lean` shows that the results are those of the functions of the model.
-/
namespace SX.Space

/-- `de/mod.rs:559-565`: the attribute loop of `read_to`.  The visitor holds more with each attribute. -/
def visitAttrs {σ : Type} (V : Visitor σ) (m : σ → Nat) (stack : List StackElem) (pos : Pos) : List XAttr → σ → Nat × Except Fault (σ × Except VErr Unit)
  | [], v => (m v, .ok (v, .ok ()))
  | a :: as, v =>
    match V.onAttr v a.name.expanded a.value with
    | .error f => (m v, .error f)
    | .ok (v', .error e) => (max (m v) (m v'), .ok (v', .error (.propagate (e.toError stack pos))))
    | .ok (v', .ok ()) =>
      match visitAttrs V m stack pos as v' with
      | (n, r) => (max (m v) n, r)

/-- `de/mod.rs:611-638`: `read_string`.  It holds the text so far. -/
def readString (dbg : Bool) (er : ElemReader) : Nat → String → RState → Nat × Out VErr String
  | 0, out, _ => (out.utf8ByteSize, .error .fuel)
  | fuel + 1, out, s =>
    if dbg && er.stackPos + 1 != s.stack.length then (out.utf8ByteSize, .error .panic)
    else match next dbg s with
    | .error f => (out.utf8ByteSize, .error f)
    | .ok (.error e, s) => (out.utf8ByteSize, .ok (.error (.propagate e), s))
    | .ok (.ok (.start _ _, pos), s) =>
      match s.stack.getLast? with
      | none => (out.utf8ByteSize, .error .panic)
      | some child => (out.utf8ByteSize, .ok (.error (.propagate { kind := .msg (.elementInString child.name), stack := s.stack, pos }), s))
    | .ok (.ok (.end_ _, _), s) => (out.utf8ByteSize, .ok (.ok out, s))
    | .ok (.ok (.chars str, _), s) =>
      match readString dbg er fuel (if out.isEmpty then str else out ++ str) s with
      | (n, r) => (max out.utf8ByteSize n, r)

/-- `de/mod.rs:566-602`: the event loop of `read_to`, and (inside it) `read_to` of children (`de/mod.rs:557-565`).  While a child is read, the visitor holds what it did before. -/
def readLoop {σ : Type} (dbg : Bool) (V : Visitor σ) (m : σ → Nat) : Nat → ElemReader → σ → RState → Nat × Except Fault (σ × Except VErr ReadToOk × RState)
  | 0, _, v, _ => (m v, .error .fuel)
  | fuel + 1, er, v, s =>
    if dbg && er.stackPos + 1 != s.stack.length then (m v, .error .panic)
    else match next dbg s with
    | .error f => (m v, .error f)
    | .ok (.error e, s) => (m v, .ok (v, .error (.propagate e), s))
    | .ok (.ok (.end_ name, pos), s) => (m v, .ok (v, .ok (name, er.ns, pos), s))
    | .ok (.ok (.chars str, pos), s) =>
      match V.onChars v str pos with
      | .error f => (m v, .error f)
      | .ok (v', .error e) => (max (m v) (m v'), .ok (v', .error (.propagate { kind := .deserializer e, stack := s.stack, pos }), s))
      | .ok (v', .ok ()) =>
        match readLoop dbg V m fuel er v' s with
        | (n, r) => (max (m v) n, r)
    | .ok (.ok (.start attrs ns, pos), s) =>
      let child : ElemReader := { ns, attrs, stackPos := er.stackPos + 1 }
      match s.stack[child.stackPos]? with
      | none => (m v, .error .panic)
      | some elem =>
        let info : ElemInfo := { name := elem.name, ns, depth := child.stackPos + 1 }
        let r : Nat × Except Fault ((Except Fault (σ × Except VErr Unit)) × RState) :=
          match V.onElem v info with
          | .done r => (m v, .ok (r, s))
          | .readString k =>
            match readString dbg child fuel "" s with
            | (n, .error f) => (m v + n, .error f)
            | (n, .ok (r, s)) => (m v + n, .ok (k r, s))
          | .readTo sub k =>
            match visitAttrs V m s.stack elem.pos attrs sub with
            | (n, .error f) => (m v + n, .error f)
            | (n, .ok (sub, .error e)) => (m v + n, .ok (k sub (.error e), s))
            | (n, .ok (sub, .ok ())) =>
              match readLoop dbg V m fuel child sub s with
              | (n', .error f) => (m v + max n n', .error f)
              | (n', .ok (sub, r, s)) => (m v + max n n', .ok (k sub r, s))
        match r with
        | (n, .error f) => (n, .error f)
        | (n, .ok (.error f, _)) => (n, .error f)
        | (n, .ok (.ok (v', .error e), s)) => (max n (m v'), .ok (v', .error (.propagate (e.toError s.stack pos)), s))
        | (n, .ok (.ok (v', .ok ()), s)) =>
          match returnToDepth dbg (er.stackPos + 1) s with
          | .error f => (max n (m v'), .error f)
          | .ok (.error e, s) => (max n (m v'), .ok (v', .error (.propagate e), s))
          | .ok (.ok (), s) =>
            match readLoop dbg V m fuel er v' s with
            | (n', r) => (max n n', r)

/-- `de/mod.rs:546-603`: `read_to` of the element `er`. -/
def readTo {σ : Type} (dbg : Bool) (V : Visitor σ) (m : σ → Nat) (fuel : Nat) (er : ElemReader) (v : σ) (s : RState) :
    Nat × Except Fault (σ × Except VErr ReadToOk × RState) :=
  match s.stack[er.stackPos]? with
  | none => (m v, .error .panic)
  | some elem =>
    match visitAttrs V m s.stack elem.pos er.attrs v with
    | (n, .error f) => (n, .error f)
    | (n, .ok (v, .error e)) => (n, .ok (v, .error e, s))
    | (n, .ok (v, .ok ())) =>
      match readLoop dbg V m fuel er v s with
      | (n', r) => (max n n', r)

/-- Runs an implementation on an element: `T::deserialize(element)`.  `de/mod.rs:267,668`. -/
def runDeser {σ α : Type} (dbg : Bool) (V : Visitor σ) (m : σ → Nat) (D : Deser σ α) (fuel : Nat) (er : ElemReader) (s : RState) :
    Nat × Except Fault (Except VErr α × RState) :=
  match s.stack[er.stackPos]? with
  | none => (0, .error .panic)
  | some elem =>
    let r : Nat × Except Fault ((Except Fault (Except VErr α)) × RState) :=
      match D { name := elem.name, ns := er.ns, depth := er.stackPos + 1 } with
      | .done r => (0, .ok (r, s))
      | .readString k =>
        match readString dbg er fuel "" s with
        | (n, .error f) => (n, .error f)
        | (n, .ok (r, s)) => (n, .ok (k r, s))
      | .readTo sub k =>
        match readTo dbg V m fuel er sub s with
        | (n, .error f) => (n, .error f)
        | (n, .ok (sub, r, s)) => (n, .ok (k sub r, s))
    match r with
    | (n, .error f) => (n, .error f)
    | (n, .ok (.error f, _)) => (n, .error f)
    | (n, .ok (.ok r, s)) => (n, .ok (r, s))

/-- `de/mod.rs:264-269`: `read` (and `from_str`, 278-280); `a`: what the value holds. -/
def read {σ α : Type} (dbg : Bool) (V : Visitor σ) (m : σ → Nat) (D : Deser σ α) (a : α → Nat) (input : Input) : Nat × Except Fault (Except Error α) :=
  match root dbg input.start with
  | .error f => (0, .error f)
  | .ok (.error e, _) => (0, .ok (.error e))
  | .ok (.ok er, s) =>
    match runDeser dbg V m D (s.inner.items.length + 1) er s with
    | (n, .error f) => (n, .error f)
    | (n, .ok (.error e, s)) => (n, .ok (.error (e.toError s.stack s.inner.pos)))
    | (n, .ok (.ok x, s)) =>
      match endDoc dbg s with
      | .error f => (max n (a x), .error f)
      | .ok (.error e) => (max n (a x), .ok (.error e))
      | .ok (.ok ()) => (max n (a x), .ok (.ok x))

end SX.Space
