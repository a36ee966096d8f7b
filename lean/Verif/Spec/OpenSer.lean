import Verif.Model.OpenSer
import Verif.Spec.Writer

/-
What derived serializers do with the implementations for their fields' types.
-/
namespace SX.Spec.Open
open SX.Open

/-- Things done one after another until one fails. -/
def inTurn {S : Type} : List (S → Except Fault (S × Except SErr Unit)) → S → Except Fault (S × Except SErr Unit)
  | [], s => .ok (s, .ok ())
  | a :: l, s =>
    match a s with
    | .error f => .error f
    | .ok (s, .error e) => .ok (s, .error e)
    | .ok (s, .ok ()) => inTurn l s

/-- What the implementations for element fields do. -/
def elementsOf (fields : List SField) : List (Prog [.writer false]) :=
  fields.filterMap fun f =>
    match f.kind with
    | .element w => some (w f.name.expanded)
    | _ => none

/-- What the implementations for attribute fields do. -/
def attributesOf (fields : List SField) : List AttrProg :=
  fields.filterMap fun f =>
    match f.kind with
    | .attribute w => some (w f.name.expanded)
    | _ => none

/-- The implementations for flattened fields. -/
def flattenedOf (fields : List SField) : List Ser :=
  fields.filterMap fun f =>
    match f.kind with
    | .flatten v => some v
    | _ => none

/-- Doing something with a writer that has the given namespaces. -/
def doing (dbg : Bool) (sink : Sink) (n : Namespaces) (p : Prog [.writer false]) (s : WState) :
    Except Fault (WState × Except SErr Unit) :=
  p.run dbg sink (.cons (h := .writer false) n .nil) s

/-- Declaring a namespace. -/
def declaring (dbg : Bool) (m : String × String) (b : Builder) : Except Fault (Builder × Except SErr Unit) :=
  (b.namespace dbg m.1 m.2).map fun b => (b, .ok ())

/-! ### Types of Part II as types with implementations -/

/-- What the derived (or text) implementation of `Serialize` does. -/
def serOf (env : Env) (ty : Ty) (v : Val) : Ser := ⟨writeAttributes env ty v, writeChildren env ty v .ret⟩

/-- What the implementation of `SerializeField` for `T`, `Option<T>` or `Vec<T>` does. -/
def slotSer (env : Env) (s : Slot) (v : Val) (name : EName) : Prog [.writer false] :=
  match s.card, v with
  | .one, v => fieldOne (serOf env s.ty v) name
  | .opt, .opt v => fieldOpt (v.map (serOf env s.ty)) name
  | .many, .vec l => fieldVec (l.map (serOf env s.ty)) name
  | _, _ => .ret (.ok ())

/-- What the implementation of `SerializeAttr` for `T` or `Option<T>` does. -/
def attrSer (optional : Bool) (t : TextTy) (v : Val) (name : EName) : AttrProg :=
  match optional, v with
  | false, .text tv => attrOpt ((t.toText tv).map .ok) name
  | true, .opt (some (.text tv)) => attrOpt ((t.toText tv).map .ok) name
  | _, _ => .ret (.ok ())

/-- The fields of a declared struct, with their values. -/
def serFields (env : Env) (fields : List Field) (vs : List Val) : List SField :=
  (fields.zip vs).map fun x => ⟨x.1.name,
    match x.1.kind with
    | .element s => .element (slotSer env s x.2)
    | .attribute o t => .attribute (attrSer o t x.2)
    | .flatten e => .flatten (serOf env (.enm e) x.2)
    | .text _ => .text⟩

/-- The variant of a value of a declared enum. -/
def serVariant (env : Env) (d : EnumDef) (j : Nat) (p : Option Val) : SVariant :=
  match d.variants[j]? with
  | none => .skipped
  | some w =>
    if w.skip then .skipped
    else
      match w.slot, p with
      | none, none => .unit w.name
      | some s, some p => .payload w.name (slotSer env s p)
      | _, _ => .skipped

end SX.Spec.Open
