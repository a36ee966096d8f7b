import Verif.Model.Whole

/-
The reader of `Model/Reader.lean` with a limit to the call stack: `room` is the number of `read_to` calls that fit on it.  `none` is a stack
overflow, which ends the process.  Only `read_to` counts, as it is the only function of the crate through which implementations can call
themselves again; what is called in between takes a constant number of frames for derived types.
-/
namespace SX

/-- `de/mod.rs:566-602`: the event loop of `read_to` as in `readLoop`, where `room` further nested calls of `read_to` fit on the stack. -/
def readLoopIn {σ : Type} (dbg : Bool) (V : Visitor σ) :
    Nat → Nat → ElemReader → σ → RState → Option (Except Fault (σ × Except VErr ReadToOk × RState))
  | 0, _, _, _, _ => some (.error .fuel)
  | fuel + 1, room, er, v, s =>
    if dbg && er.stackPos + 1 != s.stack.length then some (.error .panic)
    else match next dbg s with
    | .error f => some (.error f)
    | .ok (.error e, s) => some (.ok (v, .error (.propagate e), s))
    | .ok (.ok (.end_ name, pos), s) => some (.ok (v, .ok (name, er.ns, pos), s))
    | .ok (.ok (.chars str, pos), s) =>
      match V.onChars v str pos with
      | .error f => some (.error f)
      | .ok (v, .error e) =>
        some (.ok (v, .error (.propagate { kind := .deserializer e, stack := s.stack, pos }), s))
      | .ok (v, .ok ()) => readLoopIn dbg V fuel room er v s
    | .ok (.ok (.start attrs ns, pos), s) =>
      let child : ElemReader := { ns, attrs, stackPos := er.stackPos + 1 }
      match s.stack[child.stackPos]? with
      | none => some (.error .panic)
      | some elem =>
        let info : ElemInfo := { name := elem.name, ns, depth := child.stackPos + 1 }
        let r : Option (Except Fault ((Except Fault (σ × Except VErr Unit)) × RState)) :=
          match V.onElem v info with
          | .done r => some (.ok (r, s))
          | .readString k =>
            match readString dbg child fuel "" s with
            | .error f => some (.error f)
            | .ok (r, s) => some (.ok (k r, s))
          | .readTo sub k =>
            match room with
            | 0 => none
            | room + 1 =>
              match visitAttrs V s.stack elem.pos attrs sub with
              | .error f => some (.error f)
              | .ok (sub, .error e) => some (.ok (k sub (.error e), s))
              | .ok (sub, .ok ()) =>
                match readLoopIn dbg V fuel room child sub s with
                | none => none
                | some (.error f) => some (.error f)
                | some (.ok (sub, r, s)) => some (.ok (k sub r, s))
        match r with
        | none => none
        | some (.error f) => some (.error f)
        | some (.ok (.error f, _)) => some (.error f)
        | some (.ok (.ok (v, .error e), s)) => some (.ok (v, .error (.propagate (e.toError s.stack pos)), s))
        | some (.ok (.ok (v, .ok ()), s)) =>
          match returnToDepth dbg (er.stackPos + 1) s with
          | .error f => some (.error f)
          | .ok (.error e, s) => some (.ok (v, .error (.propagate e), s))
          | .ok (.ok (), s) => readLoopIn dbg V fuel room er v s

/-- `de/mod.rs:546-603`: `read_to` as in `readTo`; this call counts. -/
def readToIn {σ : Type} (dbg : Bool) (V : Visitor σ) (fuel room : Nat) (er : ElemReader) (v : σ) (s : RState) :
    Option (Except Fault (σ × Except VErr ReadToOk × RState)) :=
  match room with
  | 0 => none
  | room + 1 =>
    match s.stack[er.stackPos]? with
    | none => some (.error .panic)
    | some elem =>
      match visitAttrs V s.stack elem.pos er.attrs v with
      | .error f => some (.error f)
      | .ok (v, .error e) => some (.ok (v, .error e, s))
      | .ok (v, .ok ()) => readLoopIn dbg V fuel room er v s

/-- `T::deserialize(element)` as in `runDeser`.  `de/mod.rs:267,668`. -/
def runDeserIn {σ α : Type} (dbg : Bool) (V : Visitor σ) (D : Deser σ α) (fuel room : Nat) (er : ElemReader)
    (s : RState) : Option (Except Fault (Except VErr α × RState)) :=
  match s.stack[er.stackPos]? with
  | none => some (.error .panic)
  | some elem =>
    let r : Option (Except Fault ((Except Fault (Except VErr α)) × RState)) :=
      match D { name := elem.name, ns := er.ns, depth := er.stackPos + 1 } with
      | .done r => some (.ok (r, s))
      | .readString k =>
        match readString dbg er fuel "" s with
        | .error f => some (.error f)
        | .ok (r, s) => some (.ok (k r, s))
      | .readTo sub k =>
        match readToIn dbg V fuel room er sub s with
        | none => none
        | some (.error f) => some (.error f)
        | some (.ok (sub, r, s)) => some (.ok (k sub r, s))
    match r with
    | none => none
    | some (.error f) => some (.error f)
    | some (.ok (.error f, _)) => some (.error f)
    | some (.ok (.ok r, s)) => some (.ok (r, s))

/-- `de/mod.rs:264-269`: `read` as in `SX.read`, with room for `room` nested calls of `read_to`. -/
def readIn {σ α : Type} (dbg : Bool) (V : Visitor σ) (D : Deser σ α) (room : Nat) (input : Input) :
    Option (Except Fault (Except Error α)) :=
  match root dbg input.start with
  | .error f => some (.error f)
  | .ok (.error e, _) => some (.ok (.error e))
  | .ok (.ok er, s) =>
    match runDeserIn dbg V D (s.inner.items.length + 1) room er s with
    | none => none
    | some (.error f) => some (.error f)
    | some (.ok (.error e, s)) => some (.ok (.error (e.toError s.stack s.inner.pos)))
    | some (.ok (.ok a, s)) =>
      match endDoc dbg s with
      | .error f => some (.error f)
      | .ok (.error e) => some (.ok (.error e))
      | .ok (.ok ()) => some (.ok (.ok a))

/-- `de::read::<T>` / `from_str::<T>` for a derived or text type, as in `readTy`.  `de/mod.rs:264-280`. -/
def readTyIn (dbg : Bool) (env : Env) (room : Nat) (ty : Ty) (i : Input) : Option (Except Fault (Except Error Val)) :=
  readIn dbg (derivedVisitor env) (fun _ => deserTy env ty) room i

/-- The same with the emitted code for a whole crate, as in `Crate.read`.  `de/mod.rs:264-280`. -/
def Gen.Crate.readIn (c : Gen.Crate) (code : Gen.Emitted) (types : Gen.Types) (dbg : Bool) (room : Nat) (ty : Ty) (i : Input) :
    Option (Except Fault (Except Error Val)) :=
  SX.readIn dbg (c.visitor code types) (fun _ => (c.deser code types ty).map Gen.returned) room i

end SX
