import Verif.Model.Entry
import Verif.Model.GenRun
import Verif.Model.Macro

/-
A crate that uses the derive macros, as a whole: the emitted code of all its types, put together.  Types of fields are text types and types of
the crate, and `Option` and `Vec` of them.
-/
namespace SX.Gen
open SX.Open

/-- The declarations with derived `Deserialize`, numbered; the types of fields and payloads as they are written there; and what types that are written
like that are.  Not in the code: what a user of the macros of `static-xml-derive/src/lib.rs:34-42` writes. -/
structure Crate where
  strct : Nat → Decl
  enm : Nat → Decl
  fieldTy : Nat → String → String
  payloadTy : Nat → String → String
  means : String → FieldTypes

/-- The emitted code.  `deserialize.rs:472-484`. -/
structure Emitted where
  strct : Nat → StructCode
  enm : Nat → EnumCode

/-- The emitted visitors, with the memory they refer to (`deserialize.rs:274-282,404-407`). -/
inductive GenState where
  | strct (i : Nat) (g : GState (GEState Val) Val)
  | enm (i : Nat) (st : GEState Val)

/-- The implementations of traits for all types.  The traits are those of `de/mod.rs:685-733`. -/
abbrev Types := String → TypeImpl GenState (GEState Val) Val

/-- The fields of a struct with their types.  `common.rs:432-437`. -/
def Crate.decl (c : Crate) (i : Nat) : List (String × String) :=
  match (c.strct i).data with
  | .named fields => fields.map fun f => (f.ident, c.fieldTy i f.ident)
  | _ => []

/-- The code of a struct; the names of types in it refer to `types`.  `deserialize.rs:266-333`. -/
def Crate.prg (c : Crate) (code : Emitted) (types : Types) (i : Nat) : Prg GenState (GEState Val) Val where
  code := code.strct i
  decl := c.decl i
  types := types

/-- The code of an enum.  `deserialize.rs:401-469`. -/
def Crate.eprg (c : Crate) (code : Emitted) (types : Types) (i : Nat) : EPrg GenState (GEState Val) Val where
  code := code.enm i
  payload := fun v => some (c.payloadTy i v)
  types := types

/-- A value of an enum: variants are numbered as declared.  The values made in `deserialize.rs:382,388`. -/
def variantVal (d : Decl) (x : String × Option Val) : Val := .enm (((declVariants d).map fun v => v.ident).idxOf x.1) x.2

/-- `RawDeserializeVisitor::finalize(visitor, None)?` and `assume_init` (`de/mod.rs:751-753`).  (Undefined behaviour is taken for a panic
here; that there is none is the subject of C58.) -/
def finish {σ τ α : Type} (raw : Raw σ τ α) (val : α → Val) (t : τ) : Ret VErr Val :=
  match raw.finalize t none with
  | .ok (t, .ok ()) =>
    match raw.out t with
    | some v => .ok (val v)
    | none => .panic
  | .ok (_, .err e) => .err e
  | _ => .panic

/-- The visitor's `finalize`, whichever visitor it is.  `deserialize.rs:320-329,448-461`, called in `de/mod.rs:751`. -/
def Crate.finish (c : Crate) (code : Emitted) (types : Types) : GenState → Ret VErr Val
  | .strct i g => Gen.finish (c.prg code types i).raw .strct g
  | .enm i st => Gen.finish (c.eprg code types i).raw (variantVal (c.enm i)) st

/-- `T::deserialize`: `de/mod.rs:1067-1072` for text types, `de/mod.rs:741-757` for the others. -/
def Crate.deser (c : Crate) (code : Emitted) (types : Types) : Ty → Action GenState (Ret VErr Val)
  | .text t => .readString fun r =>
    match r with
    | .error e => .err e
    | .ok s =>
      match t.parse s with
      | .ok v => .ok (.text v)
      | .err e => .err (.wrap (.text e))
      | .fault _ => .panic
  | .strct i => .readTo (.strct i (c.prg code types i).raw.new) fun sub r =>
    match r with
    | .error e => .err e
    | .ok _ => c.finish code types sub
  | .enm i => .readTo (.enm i (c.eprg code types i).raw.new) fun sub r =>
    match r with
    | .error e => .err e
    | .ok _ => c.finish code types sub

/-- `DeserializeElementField` for `T`, `Option<T>` and `Vec<T>` (`de/mod.rs:958-1000`). -/
def Crate.field (c : Crate) (code : Emitted) (types : Types) (s : Slot) : FieldImpl GenState Val where
  init _ := (c.deser code types s.ty).map fun r =>
    match r with
    | .ok v => .ok (match s.card with
      | .one => v
      | .opt => .opt (some v)
      | .many => .vec [v])
    | .err e => .err e
    | .panic => .panic
  update v info :=
    match s.card, v with
    | .many, .vec l => (c.deser code types s.ty).map fun r =>
      match r with
      | .ok x => (.vec (l ++ [x]), .ok ())
      | .err e => (v, .err e)
      | .panic => (v, .panic)
    | .many, _ => .done (v, .panic)
    | _, _ => .done (v, .err (.wrap (.duplicateElement info.name.expanded)))
  missing n :=
    match s.card with
    | .one => .err (.wrap (.missingElement n))
    | .opt => .ok (.opt none)
    | .many => .ok (.vec [])

/-- `DeserializeAttrField` for `T` and `Option<T>` (`de/mod.rs:1002-1020`). -/
def attrField (optional : Bool) (t : TextTy) : AttrImpl Val where
  init value :=
    match t.parse value with
    | .ok v => .ok (if optional then .opt (some (.text v)) else .text v)
    | .err e => .err (.wrap (.text e))
    | .fault _ => .panic
  missing n := if optional then .ok (.opt none) else .err (.wrap (.missingAttribute n))

/-- `RawDeserialize` of an enum (`deserialize.rs:464-466`), its values as `Val`.  (`default` and `flatten` exclude each other, `common.rs:573-580`, so
there is no default.) -/
def Crate.flat (c : Crate) (code : Emitted) (types : Types) (e : Nat) : Raw GenState (GEState Val) Val where
  new := (c.eprg code types e).raw.new
  attr := (c.eprg code types e).raw.attr
  characters := (c.eprg code types e).raw.characters
  element := (c.eprg code types e).raw.element
  finalize st _ := (c.eprg code types e).raw.finalize st none
  out st := ((c.eprg code types e).raw.out st).map (variantVal (c.enm e))

/-- The implementations for a type, where those for the types in its declaration are given.  `de/mod.rs:958-1020`, `deserialize.rs:464-466`. -/
def Crate.impl (c : Crate) (code : Emitted) (types : Types) (ty : String) : TypeImpl GenState (GEState Val) Val where
  field := c.field code types (c.means ty).element
  attr := attrField (c.means ty).attribute.1 (c.means ty).attribute.2
  raw := c.flat code types (c.means ty).flatten
  default := .ok (c.means ty).default

/-- The implementations for all types, which may refer to each other.  Not in the code: the compiler finds the implementations that emitted code refers to (`deserialize.rs:68,106,122,182,205,216,364,388`). -/
def Crate.Tied (c : Crate) (code : Emitted) (types : Types) : Prop := ∀ ty, types ty = c.impl code types ty

/-- A visitor as `read_to` sees it (`de/mod.rs:559-602`): what is handed back is ignored, and a panic ends everything. -/
def seenAttr {τ ε : Type} (f : τ → GenState) (r : Except Fault (τ × Ret ε (Option String))) : Except Fault (GenState × Except ε Unit) :=
  match r with
  | .error x => .error x
  | .ok (t, .ok _) => .ok (f t, .ok ())
  | .ok (t, .err e) => .ok (f t, .error e)
  | .ok (_, .panic) => .error .panic

/-- The same for the result of `element`, when the child has been read.  `de/mod.rs:578-598`. -/
def seenRet {τ : Type} (f : τ → GenState) (r : Except Fault (τ × Ret VErr Unit)) : Except Fault (GenState × Except VErr Unit) :=
  match r with
  | .error x => .error x
  | .ok (t, .ok ()) => .ok (f t, .ok ())
  | .ok (t, .err e) => .ok (f t, .error e)
  | .ok (_, .panic) => .error .panic

/-- The same for a child element.  `de/mod.rs:578-598`. -/
def seenElem {τ : Type} (f : τ → GenState) (r : Except Fault (Offer GenState τ)) : Action GenState (Except Fault (GenState × Except VErr Unit)) :=
  match r with
  | .error x => .done (.error x)
  | .ok (.back t) => .done (.ok (f t, .ok ()))
  | .ok (.take a) => a.map (seenRet f)

/-- The `ElementVisitor` implementations of the emitted visitors (`deserialize.rs:284-306,409-437`). -/
def Crate.visitor (c : Crate) (code : Emitted) (types : Types) : Visitor GenState where
  onAttr v n s :=
    match v with
    | .strct i g => seenAttr (.strct i) ((c.prg code types i).raw.attr g n s)
    | .enm i st => seenAttr (.enm i) ((c.eprg code types i).raw.attr st n s)
  onChars v s pos :=
    match v with
    | .strct i g => seenAttr (.strct i) ((c.prg code types i).raw.characters g s pos)
    | .enm i st => seenAttr (.enm i) ((c.eprg code types i).raw.characters st s pos)
  onElem v info :=
    match v with
    | .strct i g => seenElem (.strct i) ((c.prg code types i).raw.element g info)
    | .enm i st => seenElem (.enm i) ((c.eprg code types i).raw.element st info)

/-- A panic ends everything.  Of `T::deserialize`, called in `de/mod.rs:267`. -/
def returned {α : Type} : Ret VErr α → Except Fault (Except VErr α)
  | .ok a => .ok (.ok a)
  | .err e => .ok (.error e)
  | .panic => .error .panic

/-- `de::read::<T>` / `from_str::<T>` (`de/mod.rs:264-280`) with the emitted code. -/
def Crate.read (c : Crate) (code : Emitted) (types : Types) (dbg : Bool) (ty : Ty) (i : Input) : Except Fault (Except Error Val) :=
  SX.read dbg (c.visitor code types) (fun _ => (c.deser code types ty).map returned) i

/-! ### Serialization -/

/-- What `derive(Serialize)` emitted.  `serialize.rs:155-169`. -/
structure SerEmitted where
  strct : Nat → SerCode
  enm : Nat → SerEnumCode

/-- Nothing is written.  (Used for values that do not have the type, which Rust rules out.)  The default methods in `ser/mod.rs:494-501` do the same. -/
def nothing : Ser := { attrs := .ret (.ok ()), children := .ret (.ok ()) }

/-- Has no implementation that does anything.  Stands for values that emitted code (`serialize.rs:87-153`) does not refer to. -/
def noVal : SerVal := { attr := fun _ => .ret (.ok ()), field := fun _ => .ret (.ok ()), ser := nothing }

/-- `SerializeAttr` for `T` and `Option<T>` (`ser/mod.rs:641-662`). -/
def attrVal (optional : Bool) (t : TextTy) (v : Val) : EName → AttrProg :=
  match optional, v with
  | false, .text tv =>
    match t.toText tv with
    | some s => attrOne (.ok s)
    | none => fun _ => .ret (.ok ())
  | true, .opt none => attrOpt none
  | true, .opt (some (.text tv)) =>
    match t.toText tv with
    | some s => attrOpt (some (.ok s))
    | none => fun _ => .ret (.ok ())
  | _, _ => fun _ => .ret (.ok ())

mutual
/-- `Serialize`: `ser/mod.rs:623-627` for text types, the emitted code for the others.  The variants of an enum are numbered as declared. -/
def Crate.ser (c : Crate) (code : SerEmitted) (ty : Ty) (v : Val) : Ser :=
  match ty, v with
  | .text t, .text tv =>
    match t.toText tv with
    | some s => textSer (.ok s)
    | none => nothing
  | .strct i, .strct vs => (code.strct i).ser (c.serSelf code (c.decl i) vs)
  | .enm i, .enm j p =>
    match (declVariants (c.enm i))[j]? with
    | none => nothing
    | some w =>
      match p with
      | none => ((code.enm i).ser (fun _ => noVal) w.ident none).getD nothing
      | some p => ((code.enm i).ser (fun _ => noVal) w.ident
          (some (c.serVal code (c.means (c.payloadTy i w.ident)) p))).getD nothing
  | _, _ => nothing
termination_by 3 * sizeOf v
decreasing_by all_goals (simp_wf <;> (try simp only [wfParam]) <;> omega)

/-- `self.#field`, with the implementations for its type.  `serialize.rs:34,44,59,69`. -/
def Crate.serSelf (c : Crate) (code : SerEmitted) (decl : List (String × String)) (vs : List Val) (field : String) : SerVal :=
  match decl, vs with
  | f :: decl, v :: vs => if f.1 = field then c.serVal code (c.means f.2) v else c.serSelf code decl vs field
  | _, _ => noVal
termination_by 3 * sizeOf vs
decreasing_by all_goals (simp_wf <;> (try simp only [wfParam]) <;> omega)

/-- The implementations for a type, applied to a value.  `ser/mod.rs:532-571,622-662`. -/
def Crate.serVal (c : Crate) (code : SerEmitted) (m : FieldTypes) (v : Val) : SerVal :=
  { attr := attrVal m.attribute.1 m.attribute.2 v, field := c.serField code m.element v, ser := c.ser code (.enm m.flatten) v }
termination_by 3 * sizeOf v + 2
decreasing_by all_goals (simp_wf <;> (try simp only [wfParam]) <;> omega)

/-- `SerializeField` for `T`, `Option<T>` and `Vec<T>` (`ser/mod.rs:532-571`). -/
def Crate.serField (c : Crate) (code : SerEmitted) (s : Slot) (v : Val) : EName → Prog [.writer false] :=
  match s.card, v with
  | .one, v => fieldOne (c.ser code s.ty v)
  | .opt, .opt none => fieldOpt none
  | .opt, .opt (some v) => fieldOpt (some (c.ser code s.ty v))
  | .many, .vec l => fieldVec (c.serAll code s.ty l)
  | _, _ => fun _ => .ret (.ok ())
termination_by 3 * sizeOf v + 1
decreasing_by all_goals (simp_wf <;> (try simp only [wfParam]) <;> omega)

/-- The items of a `Vec`.  `ser/mod.rs:559-571`. -/
def Crate.serAll (c : Crate) (code : SerEmitted) (ty : Ty) (l : List Val) : List Ser :=
  match l with
  | [] => []
  | v :: l => c.ser code ty v :: c.serAll code ty l
termination_by 3 * sizeOf l
decreasing_by all_goals (simp_wf <;> (try simp only [wfParam]) <;> omega)
end

/-- `SerializeRoot::root` (`serialize.rs:75-85`). -/
def Crate.root (_ : Crate) (code : SerEmitted) : Ty → Option EName
  | .text _ => none
  | .strct i => some (code.strct i).root
  | .enm i => some (code.enm i).root

/-- `serialize_with_name(value, name).to(sink)` (`ser/mod.rs:749-759,694-717`) with the emitted code. -/
def Crate.write (c : Crate) (code : SerEmitted) (dbg : Bool) (sink : Sink) (name : EName) (ty : Ty) (v : Val) :
    Except Fault (WState × Except SErr Unit) :=
  serializeTo dbg sink name (c.ser code ty v).attrs (c.ser code ty v).children

end SX.Gen
