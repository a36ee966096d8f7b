import Verif.Model.DeriveDe

/-
The code generated by `#[derive(Deserialize)]` once more, for fields of *arbitrary* types: in `Model/DeriveDe.lean`
the types of fields are text types and derived ones; here they are any implementations of
`DeserializeElementField`, `DeserializeAttrField` and `RawDeserialize`, as a user of the crate can write them.
User code may return anything, may panic, and may change a value it is given by `&mut` in any case.  Panics can be
caught, so after a panic the visitor can be used again.

Faults (`ub`, `panic`) in this file are those of the generated code itself.
-/
namespace SX.Open

/-- How a call of a Rust function returning `Result<α, ε>` ends: `Ok`, `Err` or unwinding from a panic.  E.g. the methods of `de/mod.rs:685-720`. -/
inductive Ret (ε α : Type) where
  | ok (a : α)
  | err (e : ε)
  | panic
  deriving Repr

/-- What `ElementVisitor::element` (`de/mod.rs:799-804`) does with the child: it hands it back (`Ok(Some(child))`), or
keeps it and perhaps reads it. -/
inductive Offer (σ τ : Type) where
  | back (t : τ)
  | take (a : Action σ (Except Fault (τ × Ret VErr Unit)))

/-- `RawDeserializeVisitor` (`de/mod.rs:710-720`) and its supertrait `ElementVisitor` (`de/mod.rs:777-820`).  `τ` is the state of
the visitor together with the memory `out` it was created for; `out` says what that memory holds, `none` if it is not
initialized.  `new` is applied to uninitialized memory.  `finalize` gets the result of calling the default function, if there
is one (simplification: the function is called by `finalize` when it needs it). -/
structure Raw (σ τ α : Type) where
  new : τ
  attr : τ → EName → String → Except Fault (τ × Ret VErr (Option String))
  characters : τ → String → Pos → Except Fault (τ × Ret DErr (Option String))
  element : τ → ElemInfo → Except Fault (Offer σ τ)
  finalize : τ → Option (Ret Empty α) → Except Fault (τ × Ret VErr Unit)
  out : τ → Option α

/-- `DeserializeElementField` (`de/mod.rs:685-696`).  `update` has `&mut self`: the value afterwards is given whatever the
result is. -/
structure FieldImpl (σ α : Type) where
  init : ElemInfo → Action σ (Ret VErr α)
  update : α → ElemInfo → Action σ (α × Ret VErr Unit)
  missing : EName → Ret VErr α

/-- `DeserializeAttrField` (`de/mod.rs:701-707`). -/
structure AttrImpl (α : Type) where
  init : String → Ret VErr α
  missing : EName → Ret VErr α

/-- `common.rs:515-522`: `ElementFieldMode`, with the implementation for the field's type.  There is no text mode: for it
the macro stops (`deserialize.rs:143`). -/
inductive OKind (σ τ α : Type) where
  | element (impl : FieldImpl σ α)
  | attribute (impl : AttrImpl α)
  | flatten (raw : Raw σ τ α)

/-- `common.rs:525-531`: `ElementField`.  `default`: how calling `Default::default` ends, for fields marked `default`. -/
structure OField (σ τ α : Type) where
  name : DName
  kind : OKind σ τ α
  default : Option (Ret Empty α)

/-- Memory of a field, with its `_present` flag or its visitor (`deserialize.rs:32-54`). -/
inductive OCell (τ α : Type) where
  | plain (present : Bool) (cell : Option α)
  | flat (t : τ)

/-- Positions and names of the element fields (`common.rs:446-457`). -/
def elemNames {σ τ α : Type} : List (OField σ τ α) → Nat → List (Nat × DName)
  | [], _ => []
  | f :: fs, p =>
    match f.kind with
    | .element _ => (p, f.name) :: elemNames fs (p + 1)
    | _ => elemNames fs (p + 1)

/-- Positions and names of the attribute fields (`common.rs:446-457`). -/
def attrNames {σ τ α : Type} : List (OField σ τ α) → Nat → List (Nat × DName)
  | [], _ => []
  | f :: fs, p =>
    match f.kind with
    | .attribute _ => (p, f.name) :: attrNames fs (p + 1)
    | _ => attrNames fs (p + 1)

/-- Positions of the flattened fields (`deserialize.rs:12-25`). -/
def flatPos {σ τ α : Type} : List (OField σ τ α) → Nat → List Nat
  | [], _ => []
  | f :: fs, p =>
    match f.kind with
    | .flatten _ => p :: flatPos fs (p + 1)
    | _ => flatPos fs (p + 1)

/-- `ptr::write` to memory that must not be initialized (it would leak).  `deserialize.rs:112,128,180,214,429,454`. -/
def write {α : Type} (cell : Option α) (v : α) : Except Fault (Option α) :=
  match cell with
  | some _ => .error .ub
  | none => .ok (some v)

/-- `Visitor::new` (`deserialize.rs:56-88`). -/
def newCell {σ τ α : Type} (f : OField σ τ α) : OCell τ α :=
  match f.kind with
  | .flatten raw => .flat raw.new
  | _ => .plain false none

/-- `delegate_element` (`de/mod.rs:897-910`) to the flattened fields at the given positions. -/
def delegateElement {σ τ α : Type} (fields : List (OField σ τ α)) (info : ElemInfo) :
    List Nat → List (OCell τ α) → Except Fault (Offer σ (List (OCell τ α)))
  | [], fs => .ok (.back fs)
  | p :: ps, fs =>
    match fields[p]?, fs[p]? with
    | some { kind := .flatten raw, .. }, some (.flat t) =>
      match raw.element t info with
      | .error f => .error f
      | .ok (.back t) => delegateElement fields info ps (fs.set p (.flat t))
      | .ok (.take a) => .ok (.take (a.map fun r => r.map fun (t, r) => (fs.set p (.flat t), r)))
    | _, _ => .error .panic

/-- `delegate_attribute` (`de/mod.rs:916-928`). -/
def delegateAttribute {σ τ α : Type} (fields : List (OField σ τ α)) (n : EName) :
    List Nat → List (OCell τ α) → String → Except Fault (List (OCell τ α) × Ret VErr (Option String))
  | [], fs, value => .ok (fs, .ok (some value))
  | p :: ps, fs, value =>
    match fields[p]?, fs[p]? with
    | some { kind := .flatten raw, .. }, some (.flat t) =>
      match raw.attr t n value with
      | .error f => .error f
      | .ok (t, .ok (some value)) => delegateAttribute fields n ps (fs.set p (.flat t)) value
      | .ok (t, r) => .ok (fs.set p (.flat t), r)
    | _, _ => .error .panic

/-- `delegate_characters` (`de/mod.rs:934-946`). -/
def delegateCharacters {σ τ α : Type} (fields : List (OField σ τ α)) (pos : Pos) :
    List Nat → List (OCell τ α) → String → Except Fault (List (OCell τ α) × Ret DErr (Option String))
  | [], fs, s => .ok (fs, .ok (some s))
  | p :: ps, fs, s =>
    match fields[p]?, fs[p]? with
    | some { kind := .flatten raw, .. }, some (.flat t) =>
      match raw.characters t s pos with
      | .error f => .error f
      | .ok (t, .ok (some s)) => delegateCharacters fields pos ps (fs.set p (.flat t)) s
      | .ok (t, r) => .ok (fs.set p (.flat t), r)
    | _, _ => .error .panic

/-- The generated struct visitor's `element` (`deserialize.rs:193-224,285-293`). -/
def structElement {σ τ α : Type} (fields : List (OField σ τ α)) (fs : List (OCell τ α)) (info : ElemInfo) :
    Except Fault (Offer σ (List (OCell τ α))) :=
  match lookup info.name.expanded (structTable (elemNames fields 0)) with
  | .error f => .error f
  | .ok none => delegateElement fields info (flatPos fields 0) fs
  | .ok (some p) =>
    match fields[p]?, fs[p]? with
    | some { kind := .element impl, .. }, some (.plain present cell) =>
      if present then
        match cell with
        | none => .error .ub
        | some v => .ok (.take ((impl.update v info).map fun (v, r) => .ok (fs.set p (.plain present (some v)), r)))
      else
        .ok (.take ((impl.init info).map fun r =>
          match r with
          | .ok v => (write cell v).map fun c => (fs.set p (.plain true c), .ok ())
          | .err e => .ok (fs, .err e)
          | .panic => .ok (fs, .panic)))
    | _, _ => .error .panic

/-- The generated struct visitor's `attribute` (`deserialize.rs:164-191,295-304`). -/
def structAttribute {σ τ α : Type} (fields : List (OField σ τ α)) (fs : List (OCell τ α)) (n : EName) (value : String) :
    Except Fault (List (OCell τ α) × Ret VErr (Option String)) :=
  match lookup n (structTable (attrNames fields 0)) with
  | .error f => .error f
  | .ok none => delegateAttribute fields n (flatPos fields 0) fs value
  | .ok (some p) =>
    match fields[p]?, fs[p]? with
    | some { kind := .attribute impl, .. }, some (.plain present cell) =>
      if present then .ok (fs, .err (.wrap (.duplicateAttribute n)))
      else
        match impl.init value with
        | .ok v => (write cell v).map fun c => (fs.set p (.plain true c), .ok none)
        | .err e => .ok (fs, .err e)
        | .panic => .ok (fs, .panic)
    | _, _ => .error .panic

/-- `finalize` of one field (`deserialize.rs:90-146`). -/
def finalizeCell {σ τ α : Type} (f : OField σ τ α) (c : OCell τ α) : Except Fault (OCell τ α × Ret VErr Unit) :=
  match f.kind, c with
  | .flatten raw, .flat t => (raw.finalize t f.default).map fun (t, r) => (.flat t, r)
  | .element impl, .plain present cell => plain present cell (impl.missing f.name.expanded)
  | .attribute impl, .plain present cell => plain present cell (impl.missing f.name.expanded)
  | _, _ => .error .panic
where
  /-- `if !self.present { ptr::write(field, value) }` where `value` is the default or `missing(..)?`. -/
  plain (present : Bool) (cell : Option α) (missing : Ret VErr α) : Except Fault (OCell τ α × Ret VErr Unit) :=
    if present then .ok (.plain present cell, .ok ())
    else
      let value : Ret VErr α :=
        match f.default with
        | some (.ok d) => .ok d
        | some _ => .panic
        | none => missing
      match value with
      | .ok v => (write cell v).map fun c => (.plain present c, .ok ())
      | .err e => .ok (.plain present cell, .err e)
      | .panic => .ok (.plain present cell, .panic)

/-- `deserialize.rs:320-329`: the fields in declaration order, until one fails. -/
def finalizeCells {σ τ α : Type} : List (OField σ τ α) → List (OCell τ α) →
    Except Fault (List (OCell τ α) × Ret VErr Unit)
  | [], _ => .ok ([], .ok ())
  | _ :: _, [] => .error .panic
  | f :: fs, c :: cs =>
    match finalizeCell f c with
    | .error x => .error x
    | .ok (c, .ok ()) => (finalizeCells fs cs).map fun (cs, r) => (c :: cs, r)
    | .ok (c, r) => .ok (c :: cs, r)

/-- What the memory of a field holds.  `(*self.out).#field`, `deserialize.rs:29`. -/
def cellOut {σ τ α : Type} (f : OField σ τ α) (c : OCell τ α) : Option α :=
  match f.kind, c with
  | .flatten raw, .flat t => raw.out t
  | _, .plain _ cell => cell
  | _, _ => none

/-- What the memory of the struct holds: it is initialized if every field is.  `*self.out`, which `de/mod.rs:753` assumes to be initialized. -/
def structOut {σ τ α : Type} : List (OField σ τ α) → List (OCell τ α) → Option (List α)
  | [], _ => some []
  | _ :: _, [] => none
  | f :: fs, c :: cs =>
    match cellOut f c, structOut fs cs with
    | some v, some vs => some (v :: vs)
    | _, _ => none

/-- The visitor generated for a struct (`deserialize.rs:226-334`).  `characters` is generated only if there are flattened
fields; otherwise it is the default (`de/mod.rs:812-819`), which is the same as delegating to no visitors. -/
def structRaw {σ τ α : Type} (fields : List (OField σ τ α)) : Raw σ (List (OCell τ α)) (List α) where
  new := fields.map newCell
  attr := structAttribute fields
  characters fs s pos := delegateCharacters fields pos (flatPos fields 0) fs s
  element := structElement fields
  finalize fs _ := finalizeCells fields fs
  out := structOut fields

/-- `common.rs:610-614`: `ElementVariant`, with the implementation for the payload's type. -/
structure OVariant (σ α : Type) where
  name : DName
  payload : Option (FieldImpl σ α)

/-- The visitor generated for an enum with its memory (`deserialize.rs:404-407`). -/
structure OEnum (α : Type) where
  initialized : Bool
  cell : Option (Nat × Option α)

/-- Numbers and names of the variants.  `enumerate` in `deserialize.rs:347,376`. -/
def variantNames {σ α : Type} : List (OVariant σ α) → Nat → List (Nat × DName)
  | [], _ => []
  | v :: vs, p => (p, v.name) :: variantNames vs (p + 1)

/-- The generated enum visitor's `element` (`deserialize.rs:410-435`). -/
def enumElement {σ α : Type} (vs : List (OVariant σ α)) (st : OEnum α) (info : ElemInfo) :
    Except Fault (Offer σ (OEnum α)) :=
  match lookup info.name.expanded (enumTable (variantNames vs 0)) with
  | .error f => .error f
  | .ok found =>
    if st.initialized then
      match st.cell with
      | none => .error .ub
      | some (i, payload) =>
        match vs[i]? with
        | none => .error .panic
        | some v =>
          if found = some i then
            match v.payload, payload with
            | none, none => .ok (.take (.done (.ok (st, .ok ()))))
            | some impl, some p => .ok (.take ((impl.update p info).map fun (p, r) =>
                .ok ({ st with cell := some (i, some p) }, r)))
            | _, _ => .error .panic
          else
            match found with
            | some _ => .ok (.take (.done (.ok (st,
                .err (.wrap (.unexpectedElement info.name.expanded v.name.expanded))))))
            | none => .ok (.take (.done (.ok (st, .ok ()))))
    else
      match found with
      | none => .ok (.back st)
      | some i =>
        match vs[i]? with
        | none => .error .panic
        | some v =>
          match v.payload with
          | none => .ok (.take (.done ((write st.cell (i, none)).map fun c => ({ initialized := true, cell := c }, .ok ()))))
          | some impl => .ok (.take ((impl.init info).map fun r =>
              match r with
              | .ok p => (write st.cell (i, some p)).map fun c => ({ initialized := true, cell := c }, .ok ())
              | .err e => .ok (st, .err e)
              | .panic => .ok (st, .panic)))

/-- The generated enum visitor's `finalize` (`deserialize.rs:448-461`). -/
def enumFinalize {α : Type} (ident : String) (st : OEnum α) (default : Option (Ret Empty (Nat × Option α))) :
    Except Fault (OEnum α × Ret VErr Unit) :=
  if st.initialized then .ok (st, .ok ())
  else
    match default with
    | some (.ok d) => (write st.cell d).map fun c => ({ st with cell := c }, .ok ())
    | some _ => .ok (st, .panic)
    | none => .ok (st, .err (.wrap (.cantBeEmpty ident)))

/-- The visitor generated for an enum (`deserialize.rs:396-470`).  Attributes and text: the trait's defaults
(`de/mod.rs:785-791,812-819`). -/
def enumRaw {σ α : Type} (ident : String) (vs : List (OVariant σ α)) : Raw σ (OEnum α) (Nat × Option α) where
  new := { initialized := false, cell := none }
  attr st _ value := .ok (st, .ok (some value))
  characters st s _ := .ok (st, .ok (some s))
  element := enumElement vs
  finalize := enumFinalize ident
  out st := st.cell

end SX.Open
