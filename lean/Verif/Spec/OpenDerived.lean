import Verif.Spec.Open

/-
The implementations of `DeserializeElementField`, `DeserializeAttrField` and `RawDeserialize` that the types of
`Model/Types.lean` have, as parameters of `Model/Open.lean`.  The results are those of the functions in
`Model/DeriveDe.lean`; any fault is taken for a panic here.
-/
namespace SX.Spec.Open
open SX.Open

/-- A result of the closed model. -/
def ret {α : Type} : Except Fault (Except VErr α) → Ret VErr α
  | .error _ => .panic
  | .ok (.error e) => .err e
  | .ok (.ok a) => .ok a

/-- `T`, `Option<T>` or `Vec<T>` as the type of an element field. -/
def slotImpl (env : Env) (s : Slot) : FieldImpl DState Val where
  init _ := (slotInit env s).map ret
  update v info := (slotUpdate env s (some v) info.name.expanded).map fun r =>
    match ret r with
    | .ok v => (v, .ok ())
    | .err e => (v, .err e)
    | .panic => (v, .panic)
  missing n :=
    match slotMissing s n with
    | .ok v => .ok v
    | .error e => .err e

/-- `T` or `Option<T>` as the type of an attribute field. -/
def attrImpl (optional : Bool) (t : TextTy) : AttrImpl Val where
  init value := ret (attrInit optional t value)
  missing n := if optional then .ok (.opt none) else .err (.wrap (.missingAttribute n))

/-- The variants of a derived enum. -/
def openVariants (env : Env) (e : Nat) : List (OVariant DState Val) :=
  (env.enm e).variants.map fun v => { name := v.name, payload := v.slot.map (slotImpl env) }

/-- The value in an enum's memory. -/
def enumVal (c : Nat × Option Val) : Val := .enm c.1 c.2

/-- A derived enum as the type of a flattened field. -/
def flattenImpl (env : Env) (e : Nat) : Raw DState (OEnum Val) Val where
  new := (enumRaw (env.enm e).ident (openVariants env e)).new
  attr := (enumRaw (env.enm e).ident (openVariants env e)).attr
  characters := (enumRaw (env.enm e).ident (openVariants env e)).characters
  element := (enumRaw (env.enm e).ident (openVariants env e)).element
  finalize st _ := (enumRaw (env.enm e).ident (openVariants env e)).finalize st none
  out st := st.cell.map enumVal

/-- A field of a derived struct.  (Text fields, for which the macro stops, are replaced by attributes.) -/
def openField (env : Env) (f : Field) : OField DState (OEnum Val) Val where
  name := f.name
  kind := match f.kind with
    | .element s => .element (slotImpl env s)
    | .attribute o t => .attribute (attrImpl o t)
    | .flatten e => .flatten (flattenImpl env e)
    | .text t => .attribute (attrImpl false t)
  default := f.default.map .ok

/-- The fields of a derived struct. -/
def openFields (env : Env) (i : Nat) : List (OField DState (OEnum Val) Val) := (env.strct i).fields.map (openField env)

/-- The memory of an enum. -/
def enumState (st : OEnum Val) : FState := { present := st.initialized, cell := st.cell.map enumVal }

/-- The memory of a field. -/
def fieldState : OCell (OEnum Val) Val → FState
  | .plain present cell => { present, cell }
  | .flat st => enumState st

/-- A result without distinguishing faults. -/
def someOk {α : Type} : Except Fault α → Option α
  | .error _ => none
  | .ok a => some a

/-- The same for a visitor that can be used after a panic. -/
def someRet {τ ε : Type} (r : Except Fault (τ × Ret ε Unit)) (f : τ → DState) : Option (DState × Except ε Unit) :=
  match r with
  | .ok (t, .ok ()) => some (f t, .ok ())
  | .ok (t, .err e) => some (f t, .error e)
  | _ => none

/-- What a visitor does with a child, seen from `read_to`. -/
def someOffer {τ : Type} (r : Except Fault (Offer DState τ)) (f : τ → DState) :
    Action DState (Option (DState × Except VErr Unit)) :=
  match r with
  | .error _ => .done none
  | .ok (.back t) => .done (some (f t, .ok ()))
  | .ok (.take a) => a.map fun r => someRet r f

/-- What a visitor does with an attribute or text, without what it hands back. -/
def someAttr {τ ε : Type} (r : Except Fault (τ × Ret ε (Option String))) (f : τ → DState) : Option (DState × Except ε Unit) :=
  match r with
  | .ok (t, .ok _) => some (f t, .ok ())
  | .ok (t, .err e) => some (f t, .error e)
  | _ => none

/-- `finalize` and then `assume_init`. -/
def someFinal {σ τ α β : Type} (raw : Raw σ τ α) (f : α → β) (t : τ) (d : Option (Ret Empty α)) : Option (Except VErr β) :=
  match raw.finalize t d with
  | .ok (t, .ok ()) => (raw.out t).map fun v => .ok (f v)
  | .ok (_, .err e) => some (.error e)
  | _ => none

end SX.Spec.Open
