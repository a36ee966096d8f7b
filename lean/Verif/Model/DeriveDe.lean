import Verif.Model.Types
import Verif.Model.Reader

/-
The code generated by `#[derive(Deserialize)]` (`static-xml-derive/src/deserialize.rs`), as a visitor for
the reader.  A field's memory is an optional value: `none` is uninitialized.  Reading uninitialized memory
is the fault `ub`; so is overwriting initialized memory with `ptr::write` (which in Rust leaks the old
value).

Not covered: text fields (the macro stops with `todo!`, `deserialize.rs:143`) and enums with skipped
variants (the generated `match` is not exhaustive, so they do not compile).
-/
namespace SX

/-- Memory of one field with its `_present` flag (`deserialize.rs:47-49`); for a flattened field, and for an
enum itself: `out` and `initialized` (`deserialize.rs:404-407`). -/
structure FState where
  present : Bool
  cell : Option Val
  deriving Repr

/-- The generated visitors: `deserialize.rs:274-282` for struct `i`, `deserialize.rs:404-407` for enum `i`. -/
inductive DState where
  | strct (i : Nat) (fs : List FState)
  | enm (i : Nat) (st : FState)
  deriving Repr

/-- Continue with the result of an action.  Not in the code: what follows a call, as in `de/mod.rs:959-961,992-995` and `deserialize.rs:205-219`. -/
def Action.map {σ ρ ρ' : Type} (f : ρ → ρ') : Action σ ρ → Action σ ρ'
  | .done r => .done (f r)
  | .readString k => .readString fun r => f (k r)
  | .readTo sub k => .readTo sub fun sub r => f (k sub r)

/-- `?` on the result of an action.  E.g. `de/mod.rs:993`, `deserialize.rs:216`. -/
def onOk {α β : Type} (f : α → Except Fault (Except VErr β)) : Except Fault (Except VErr α) → Except Fault (Except VErr β)
  | .error f => .error f
  | .ok (.error e) => .ok (.error e)
  | .ok (.ok a) => f a

/-- `ptr::write` to a field.  `deserialize.rs:112,128,180,214`. -/
def writeCell (st : FState) (v : Val) : Except Fault FState :=
  match st.cell with
  | some _ => .error .ub
  | none => .ok { present := true, cell := some v }

/-- Positions and names of the element fields (`common.rs:446-457`). -/
def elemNames : List Field → Nat → List (Nat × DName)
  | [], _ => []
  | f :: fs, p =>
    match f.kind with
    | .element _ => (p, f.name) :: elemNames fs (p + 1)
    | _ => elemNames fs (p + 1)

/-- Positions and names of the attribute fields (`common.rs:446-457`). -/
def attrNames : List Field → Nat → List (Nat × DName)
  | [], _ => []
  | f :: fs, p =>
    match f.kind with
    | .attribute _ _ => (p, f.name) :: attrNames fs (p + 1)
    | _ => attrNames fs (p + 1)

/-- `deserialize.rs:12-25`: positions and types of the flattened fields, in declaration order. -/
def flattens : List Field → Nat → List (Nat × Nat)
  | [], _ => []
  | f :: fs, p =>
    match f.kind with
    | .flatten e => (p, e) :: flattens fs (p + 1)
    | _ => flattens fs (p + 1)

/-- Numbers and names of the variants.  `common.rs:620-653`; `enumerate` in `deserialize.rs:347,376`. -/
def variantNames : List Variant → Nat → List (Nat × DName)
  | [], _ => []
  | v :: vs, p => if v.skip then variantNames vs (p + 1) else (p, v.name) :: variantNames vs (p + 1)

/-- `Visitor::new` for struct `i` (`deserialize.rs:56-88,312-318`). -/
def newStruct (env : Env) (i : Nat) : DState :=
  .strct i ((env.strct i).fields.map fun _ => { present := false, cell := none })

/-- `Visitor::new` for enum `i` (`deserialize.rs:441-446`). -/
def newEnum (i : Nat) : DState := .enm i { present := false, cell := none }

/-- `DeserializeElementField::missing` (`de/mod.rs:967-969,981-983,997-999`). -/
def slotMissing (s : Slot) (n : EName) : Except VErr Val :=
  match s.card with
  | .one => .error (.wrap (.missingElement n))
  | .opt => .ok (.opt none)
  | .many => .ok (.vec [])

/-- `finalize` of one field (`deserialize.rs:90-146`): gives the field's memory afterwards.  A flattened
field: the enum's `finalize` with no default (`deserialize.rs:448-461`; `default` and `flatten` exclude each
other, `common.rs:573-580`). -/
def finalizeField (env : Env) (f : Field) (st : FState) : Except Fault (Except VErr FState) :=
  match f.kind with
  | .element s =>
    if st.present then .ok (.ok st)
    else match f.default with
      | some d => (writeCell st d).map .ok
      | none =>
        match slotMissing s f.name.expanded with
        | .error e => .ok (.error e)
        | .ok v => (writeCell st v).map .ok
  | .attribute optional _ =>
    if st.present then .ok (.ok st)
    else match f.default with
      | some d => (writeCell st d).map .ok
      | none =>
        if optional then (writeCell st (.opt none)).map .ok
        else .ok (.error (.wrap (.missingAttribute f.name.expanded)))
  | .flatten e =>
    if st.present then .ok (.ok st) else .ok (.error (.wrap (.cantBeEmpty (env.enm e).ident)))
  | .text _ => .error .panic

/-- `deserialize.rs:323`: all fields in declaration order; then `assume_init` of the whole struct
(`de/mod.rs:752-753`): every field must have been written. -/
def finalizeFields (env : Env) : List Field → List FState → Except Fault (Except VErr (List Val))
  | [], _ => .ok (.ok [])
  | _ :: _, [] => .error .panic
  | f :: fs, st :: sts =>
    onOk (fun st => onOk (fun vs =>
      match st.cell with
      | none => .error .ub
      | some v => .ok (.ok (v :: vs))) (finalizeFields env fs sts)) (finalizeField env f st)

/-- `RawDeserializeVisitor::finalize` with no default, then `assume_init` (`de/mod.rs:751-753`,
`deserialize.rs:320-329,448-461`). -/
def finalize (env : Env) : DState → Except Fault (Except VErr Val)
  | .strct i fs => onOk (fun vs => .ok (.ok (.strct vs))) (finalizeFields env (env.strct i).fields fs)
  | .enm i st =>
    if st.present then
      match st.cell with
      | none => .error .ub
      | some v => .ok (.ok v)
    else .ok (.error (.wrap (.cantBeEmpty (env.enm i).ident)))

/-- `Deserialize::deserialize`: `de/mod.rs:1067-1072` for text types, `de/mod.rs:741-757` for derived types. -/
def deserTy (env : Env) : Ty → Action DState (Except Fault (Except VErr Val))
  | .text t => .readString fun r =>
    match r with
    | .error e => .ok (.error e)
    | .ok s =>
      match t.parse s with
      | .ok v => .ok (.ok (.text v))
      | .err e => .ok (.error (.wrap (.text e)))
      | .fault f => .error f
  | .strct i => .readTo (newStruct env i) fun sub r =>
    match r with
    | .error e => .ok (.error e)
    | .ok _ => finalize env sub
  | .enm i => .readTo (newEnum i) fun sub r =>
    match r with
    | .error e => .ok (.error e)
    | .ok _ => finalize env sub

/-- `DeserializeElementField::init` (`de/mod.rs:959-961,973-975,988-990`). -/
def slotInit (env : Env) (s : Slot) : Action DState (Except Fault (Except VErr Val)) :=
  (deserTy env s.ty).map (onOk fun v => .ok (.ok (match s.card with
    | .one => v
    | .opt => .opt (some v)
    | .many => .vec [v])))

/-- `DeserializeElementField::update` (`de/mod.rs:963-965,977-979,992-995`) of the field in memory `cell`: the new
content. -/
def slotUpdate (env : Env) (s : Slot) (cell : Option Val) (n : EName) : Action DState (Except Fault (Except VErr Val)) :=
  match s.card with
  | .one | .opt =>
    match cell with
    | none => .done (.error .ub)
    | some _ => .done (.ok (.error (.wrap (.duplicateElement n))))
  | .many =>
    match cell with
    | some (.vec l) => (deserTy env s.ty).map (onOk fun v => .ok (.ok (.vec (l ++ [v]))))
    | _ => .done (.error .ub)

/-- The generated enum visitor's `element` (`deserialize.rs:410-435`).  `none`: the child is handed back
(`Ok(Some(child))`); otherwise it is consumed. -/
def enumElement (env : Env) (e : Nat) (st : FState) (n : EName) :
    Except Fault (Option (Action DState (Except Fault (FState × Except VErr Unit)))) :=
  let vs := (env.enm e).variants
  match lookup n (enumTable (variantNames vs 0)) with
  | .error f => .error f
  | .ok found =>
    if st.present then
      match st.cell with
      | none => .error .ub
      | some (.enm i payload) =>
        match vs[i]? with
        | none => .error .panic
        | some v =>
          if found = some i then
            match v.slot with
            | none => .ok (some (.done (.ok (st, .ok ()))))
            | some s => .ok (some ((slotUpdate env s payload n).map fun r =>
                match r with
                | .error f => .error f
                | .ok (.error err) => .ok (st, .error err)
                | .ok (.ok p) => .ok ({ st with cell := some (.enm i (some p)) }, .ok ())))
          else
            match found with
            | some _ => .ok (some (.done (.ok (st, .error (.wrap (.unexpectedElement n v.name.expanded))))))
            | none => .ok (some (.done (.ok (st, .ok ()))))
      | some _ => .error .panic
    else
      match found with
      | none => .ok none
      | some i =>
        match vs[i]? with
        | none => .error .panic
        | some v =>
          match v.slot with
          | none => .ok (some (.done ((writeCell st (.enm i none)).map fun st => (st, .ok ()))))
          | some s => .ok (some ((slotInit env s).map fun r =>
              match r with
              | .error f => .error f
              | .ok (.error err) => .ok (st, .error err)
              | .ok (.ok p) => (writeCell st (.enm i (some p))).map fun st => (st, .ok ())))

/-- `delegate_element` (`de/mod.rs:897-910`) over the flattened fields (`deserialize.rs:246-248`) of struct `i`. -/
def delegate (env : Env) (i : Nat) (fs : List FState) (n : EName) :
    List (Nat × Nat) → Action DState (Except Fault (DState × Except VErr Unit))
  | [] => .done (.ok (.strct i fs, .ok ()))
  | (p, e) :: rest =>
    match fs[p]? with
    | none => .done (.error .panic)
    | some st =>
      match enumElement env e st n with
      | .error f => .done (.error f)
      | .ok none => delegate env i fs n rest
      | .ok (some act) => act.map fun r => r.map fun (st, r) => (.strct i (fs.set p st), r)

/-- The generated struct visitor's `element` (`deserialize.rs:193-224,285-293`). -/
def structElement (env : Env) (i : Nat) (fs : List FState) (n : EName) :
    Action DState (Except Fault (DState × Except VErr Unit)) :=
  let fields := (env.strct i).fields
  match lookup n (structTable (elemNames fields 0)) with
  | .error f => .done (.error f)
  | .ok none => delegate env i fs n (flattens fields 0)
  | .ok (some p) =>
    match fields[p]?, fs[p]? with
    | some { kind := .element s, .. }, some st =>
      if st.present then
        (slotUpdate env s st.cell n).map fun r =>
          match r with
          | .error f => .error f
          | .ok (.error e) => .ok (.strct i fs, .error e)
          | .ok (.ok v) => .ok (.strct i (fs.set p { st with cell := some v }), .ok ())
      else
        (slotInit env s).map fun r =>
          match r with
          | .error f => .error f
          | .ok (.error e) => .ok (.strct i fs, .error e)
          | .ok (.ok v) => (writeCell st v).map fun st => (.strct i (fs.set p st), .ok ())
    | _, _ => .done (.error .panic)

/-- `DeserializeAttrField::init` (`de/mod.rs:1003-1005,1013-1015`). -/
def attrInit (optional : Bool) (t : TextTy) (value : String) : Except Fault (Except VErr Val) :=
  match t.parse value with
  | .ok v => .ok (.ok (if optional then .opt (some (.text v)) else .text v))
  | .err e => .ok (.error (.wrap (.text e)))
  | .fault f => .error f

/-- The generated struct visitor's `attribute` (`deserialize.rs:164-191,295-304`).  Attributes it does not know go
to the flattened fields (`delegate_attribute`), whose visitors (derived enums) inherit the default `attribute`,
which does nothing (`de/mod.rs:785-791`). -/
def structAttribute (env : Env) (i : Nat) (fs : List FState) (n : EName) (value : String) :
    Except Fault (DState × Except VErr Unit) :=
  let fields := (env.strct i).fields
  match lookup n (structTable (attrNames fields 0)) with
  | .error f => .error f
  | .ok none => .ok (.strct i fs, .ok ())
  | .ok (some p) =>
    match fields[p]?, fs[p]? with
    | some { kind := .attribute optional t, .. }, some st =>
      if st.present then .ok (.strct i fs, .error (.wrap (.duplicateAttribute n)))
      else
        match attrInit optional t value with
        | .error f => .error f
        | .ok (.error e) => .ok (.strct i fs, .error e)
        | .ok (.ok v) => (writeCell st v).map fun st => (.strct i (fs.set p st), .ok ())
    | _, _ => .error .panic

/-- All generated visitors.  `characters` is the default or delegates to flattened enums, which inherit the
default: nothing happens (`de/mod.rs:812-819`, `deserialize.rs:250-265`). -/
def derivedVisitor (env : Env) : Visitor DState where
  onAttr v n s :=
    match v with
    | .strct i fs => structAttribute env i fs n s
    | .enm i st => .ok (.enm i st, .ok ())
  onChars v _ _ := .ok (v, .ok ())
  onElem v info :=
    match v with
    | .strct i fs => structElement env i fs info.name.expanded
    | .enm i st =>
      match enumElement env i st info.name.expanded with
      | .error f => .done (.error f)
      | .ok none => .done (.ok (.enm i st, .ok ()))
      | .ok (some act) => act.map fun r => r.map fun (st, r) => (.enm i st, r)

/-- `de::read::<T>` / `from_str::<T>` for a derived or text type.  `de/mod.rs:264-280`. -/
def readTy (dbg : Bool) (env : Env) (ty : Ty) (i : Input) : Except Fault (Except Error Val) :=
  read dbg (derivedVisitor env) (fun _ => deserTy env ty) i

end SX
