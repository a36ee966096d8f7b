import Verif.Model.Gen
import Verif.Model.Open

/-
What the code of `Model/Gen.lean` does: the meaning, in Rust, of the fragments that the macro pastes together.  Fields of the
visitor and of the memory are found by their identifiers.  An identifier that is not there or has the wrong type means that the code
does not compile; here it is a fault (`panic`).
-/
namespace SX.Gen
open SX.Open

/-- The implementations of the library's traits for a type, and its `Default::default()`.  Those that a type does not have are never
used by code that compiles.  `de/mod.rs:685-733`; `Default` in `deserialize.rs:96`. -/
structure TypeImpl (σ τ α : Type) where
  field : FieldImpl σ α
  attr : AttrImpl α
  raw : Raw σ τ α
  default : Ret Empty α

/-- A field of the visitor.  `deserialize.rs:43-49`. -/
inductive VVal (τ : Type) where
  | flag (b : Bool)
  | visitor (t : τ)

/-- The memory of a field of the struct: it holds something or nothing, or is lent to a field of the visitor (`deserialize.rs:66-77`). -/
inductive GCell (α : Type) where
  | own (cell : Option α)
  | lent (visitor : String)

/-- The visitor (`deserialize.rs:274-282`) and the memory it points to. -/
structure GState (τ α : Type) where
  vis : List (String × VVal τ)
  mem : List (String × GCell α)

/-- The field of the given name.  Field access in Rust, e.g. `self.#field_present` (`deserialize.rs:174`). -/
def get {β : Type} (k : String) : List (String × β) → Option β
  | [] => none
  | (k', v) :: l => if k' = k then some v else get k l

/-- Assign to the field of the given name.  Assignment in Rust, e.g. `self.#field_present = true` (`deserialize.rs:185`). -/
def set {β : Type} (k : String) (v : β) : List (String × β) → List (String × β)
  | [] => []
  | (k', v') :: l => if k' = k then (k', v) :: l else (k', v') :: set k v l

/-- The generated code with what it refers to: `decl` are the fields of the struct with their types, in order, `types` the
implementations for types.  `deserialize.rs:266-333`. -/
structure Prg (σ τ α : Type) where
  code : StructCode
  decl : List (String × String)
  types : String → TypeImpl σ τ α

/-- `self.#flag`.  `deserialize.rs:110,126,174,204`. -/
def GState.flag {τ α : Type} (g : GState τ α) (name : String) : Except Fault Bool :=
  match get name g.vis with
  | some (.flag b) => .ok b
  | _ => .error .panic

/-- `self.#flag = true`.  `deserialize.rs:185,218`. -/
def GState.setFlag {τ α : Type} (g : GState τ α) (name : String) : Except Fault (GState τ α) :=
  match get name g.vis with
  | some (.flag _) => .ok { g with vis := set name (.flag true) g.vis }
  | _ => .error .panic

/-- `&mut self.#visitor`, with the implementation for the type it is the visitor of.  `deserialize.rs:19,44,140`. -/
def Prg.visitor {σ τ α : Type} (c : Prg σ τ α) (g : GState τ α) (name : String) : Except Fault (Raw σ τ α × τ) :=
  match get name c.code.defs, get name g.vis with
  | some (.visitor ty), some (.visitor t) => .ok ((c.types ty).raw, t)
  | _, _ => .error .panic

/-- The visitor `#visitor` was changed.  By a call through `&mut self.#visitor` (`deserialize.rs:19,244,247,260`). -/
def GState.setVisitor {τ α : Type} (g : GState τ α) (name : String) (t : τ) : GState τ α :=
  { g with vis := set name (.visitor t) g.vis }

/-- `addr_of_mut!((*self.out).#field)` (`deserialize.rs:27-30`, `field_mut`), read. -/
def GState.cell {τ α : Type} (g : GState τ α) (field : String) : Except Fault (Option α) :=
  match get field g.mem with
  | some (.own c) => .ok c
  | _ => .error .panic

/-- `addr_of_mut!((*self.out).#field)`, written.  `deserialize.rs:29`. -/
def GState.setCell {τ α : Type} (g : GState τ α) (field : String) (c : Option α) : GState τ α :=
  { g with mem := set field (.own c) g.mem }

/-- The implementation for the type of `(*self.out).#field`: the type parameter that Rust infers for `init` and `update`.  `deserialize.rs:180-183,205-209,214-217`. -/
def Prg.typeOf {σ τ α : Type} (c : Prg σ τ α) (field : String) : Except Fault (TypeImpl σ τ α) :=
  match get field c.decl with
  | some ty => .ok (c.types ty)
  | none => .error .panic

/-- `ptr::write(addr_of_mut!((*self.out).#field), v)`.  `deserialize.rs:112,128,180-183,214-217`. -/
def GState.write {τ α : Type} (g : GState τ α) (field : String) (v : α) : Except Fault (GState τ α) :=
  match g.cell field with
  | .error f => .error f
  | .ok cell => (Open.write cell v).map (g.setCell field)

/-- The first arm of a `match` that applies: its index is the one found and its guard, if any, is true.  `deserialize.rs:289-292,300-303`. -/
def firstArm {τ α β : Type} (index : β → Nat) (guard : β → Option String) (g : GState τ α) (i : Nat) :
    List β → Except Fault (Option β)
  | [] => .ok none
  | a :: as =>
    if index a = i then
      match guard a with
      | none => .ok (some a)
      | some n =>
        match g.flag n with
        | .error f => .error f
        | .ok true => .ok (some a)
        | .ok false => firstArm index guard g i as
    else firstArm index guard g i as

/-- Statements after the one that consumed `child`.  `deserialize.rs:210,218-219`. -/
def runRest {τ α : Type} : List Stmt → GState τ α → Except Fault (GState τ α × Ret VErr Unit)
  | [], g => .ok (g, .ok ())
  | .set n :: l, g =>
    match g.setFlag n with
    | .error f => .error f
    | .ok g => runRest l g
  | _ :: _, _ => .error .panic

/-- The body of an arm in `element`.  `child` is consumed by the first statement that uses it; an arm that does not use it drops it.  `deserialize.rs:204-220`. -/
def Prg.runBody {σ τ α : Type} (c : Prg σ τ α) (info : ElemInfo) : List Stmt → GState τ α → Except Fault (Offer σ (GState τ α))
  | [], g => .ok (.take (.done (.ok (g, .ok ()))))
  | .set n :: l, g =>
    match g.setFlag n with
    | .error f => .error f
    | .ok g => c.runBody info l g
  | .update field :: l, g =>
    match c.typeOf field, g.cell field with
    | .ok impl, .ok (some v) =>
      .ok (.take ((impl.field.update v info).map fun (v, r) =>
        match r with
        | .ok () => runRest l (g.setCell field (some v))
        | r => .ok (g.setCell field (some v), r)))
    | .ok _, .ok none => .error .ub
    | _, _ => .error .panic
  | .writeInit field :: l, g =>
    match c.typeOf field with
    | .error f => .error f
    | .ok impl =>
      .ok (.take ((impl.field.init info).map fun r =>
        match r with
        | .ok v =>
          match g.write field v with
          | .error f => .error f
          | .ok g => runRest l g
        | .err e => .ok (g, .err e)
        | .panic => .ok (g, .panic)))

/-- `delegate_element` (`de/mod.rs:897-910`). -/
def Prg.delegateElement {σ τ α : Type} (c : Prg σ τ α) (info : ElemInfo) : List String → GState τ α → Except Fault (Offer σ (GState τ α))
  | [], g => .ok (.back g)
  | n :: ns, g =>
    match c.visitor g n with
    | .error f => .error f
    | .ok (raw, t) =>
      match raw.element t info with
      | .error f => .error f
      | .ok (.back t) => c.delegateElement info ns (g.setVisitor n t)
      | .ok (.take a) => .ok (.take (a.map fun r => r.map fun (t, r) => (g.setVisitor n t, r)))

/-- `delegate_attribute` (`de/mod.rs:916-928`). -/
def Prg.delegateAttribute {σ τ α : Type} (c : Prg σ τ α) (name : EName) :
    List String → GState τ α → String → Except Fault (GState τ α × Ret VErr (Option String))
  | [], g, value => .ok (g, .ok (some value))
  | n :: ns, g, value =>
    match c.visitor g n with
    | .error f => .error f
    | .ok (raw, t) =>
      match raw.attr t name value with
      | .error f => .error f
      | .ok (t, .ok (some value)) => c.delegateAttribute name ns (g.setVisitor n t) value
      | .ok (t, r) => .ok (g.setVisitor n t, r)

/-- `delegate_characters` (`de/mod.rs:934-946`). -/
def Prg.delegateCharacters {σ τ α : Type} (c : Prg σ τ α) (pos : Pos) :
    List String → GState τ α → String → Except Fault (GState τ α × Ret DErr (Option String))
  | [], g, s => .ok (g, .ok (some s))
  | n :: ns, g, s =>
    match c.visitor g n with
    | .error f => .error f
    | .ok (raw, t) =>
      match raw.characters t s pos with
      | .error f => .error f
      | .ok (t, .ok (some s)) => c.delegateCharacters pos ns (g.setVisitor n t) s
      | .ok (t, r) => .ok (g.setVisitor n t, r)

/-- The last arm of `element` (`deserialize.rs:241-245,291`). -/
def Prg.elementFall {σ τ α : Type} (c : Prg σ τ α) (g : GState τ α) (info : ElemInfo) : Except Fault (Offer σ (GState τ α)) :=
  match c.code.elementFall with
  | .back => .ok (.back g)
  | .delegate ns => c.delegateElement info ns g

/-- The method `element` (`deserialize.rs:285-293`). -/
def Prg.element {σ τ α : Type} (c : Prg σ τ α) (g : GState τ α) (info : ElemInfo) : Except Fault (Offer σ (GState τ α)) :=
  match find info.name.expanded c.code.elements with
  | .error f => .error f
  | .ok none => c.elementFall g info
  | .ok (some i) =>
    match firstArm ElemArm.index ElemArm.guard g i c.code.elementArms with
    | .error f => .error f
    | .ok (some a) => c.runBody info a.body g
    | .ok none => c.elementFall g info

/-- The body of an arm in `attribute`.  `deserialize.rs:174-187`. -/
def Prg.runAttr {σ τ α : Type} (c : Prg σ τ α) (n : EName) (value : String) (tail : ATail) :
    List AStmt → GState τ α → Except Fault (GState τ α × Ret VErr (Option String))
  | [], g =>
    match tail with
    | .duplicate => .ok (g, .err (.wrap (.duplicateAttribute n)))
    | .taken => .ok (g, .ok none)
  | .set m :: l, g =>
    match g.setFlag m with
    | .error f => .error f
    | .ok g => c.runAttr n value tail l g
  | .writeInit field :: l, g =>
    match c.typeOf field with
    | .error f => .error f
    | .ok impl =>
      match impl.attr.init value with
      | .ok v =>
        match g.write field v with
        | .error f => .error f
        | .ok g => c.runAttr n value tail l g
      | .err e => .ok (g, .err e)
      | .panic => .ok (g, .panic)

/-- The last arm of `attribute` (`deserialize.rs:236-240,302`). -/
def Prg.attributeFall {σ τ α : Type} (c : Prg σ τ α) (g : GState τ α) (n : EName) (value : String) :
    Except Fault (GState τ α × Ret VErr (Option String)) :=
  match c.code.attributeFall with
  | .back => .ok (g, .ok (some value))
  | .delegate ns => c.delegateAttribute n ns g value

/-- The method `attribute` (`deserialize.rs:295-304`). -/
def Prg.attribute {σ τ α : Type} (c : Prg σ τ α) (g : GState τ α) (n : EName) (value : String) :
    Except Fault (GState τ α × Ret VErr (Option String)) :=
  match find n c.code.attributes with
  | .error f => .error f
  | .ok none => c.attributeFall g n value
  | .ok (some i) =>
    match firstArm AttrArm.index AttrArm.guard g i c.code.attributeArms with
    | .error f => .error f
    | .ok (some a) => c.runAttr n value a.tail a.body g
    | .ok none => c.attributeFall g n value

/-- The method `characters` (`deserialize.rs:250-266`), by default (`de/mod.rs:812-819`) it hands the text back.  There is no field
`_text_buf`. -/
def Prg.characters {σ τ α : Type} (c : Prg σ τ α) (g : GState τ α) (s : String) (pos : Pos) :
    Except Fault (GState τ α × Ret DErr (Option String)) :=
  match c.code.characters with
  | none => .ok (g, .ok (some s))
  | some (.delegate ns) => c.delegateCharacters pos ns g s
  | some .textBuf => .error .panic

/-- The value for a field which was not found; indexing outside of `ELEMENTS` or `ATTRIBUTES` panics.  `deserialize.rs:103-108,119-124`. -/
def Prg.value {σ τ α : Type} (c : Prg σ τ α) : ValExpr → Except Fault (Ret VErr α)
  | .default ty =>
    .ok (match (c.types ty).default with
      | .ok d => .ok d
      | _ => .panic)
  | .missingElement ty p =>
    match c.code.elements[p]? with
    | some n => .ok ((c.types ty).field.missing n)
    | none => .error .panic
  | .missingAttribute ty p =>
    match c.code.attributes[p]? with
    | some n => .ok ((c.types ty).attr.missing n)
    | none => .error .panic

/-- One statement of `finalize`.  `deserialize.rs:109-114,125-130,139-141`. -/
def Prg.runFin {σ τ α : Type} (c : Prg σ τ α) (g : GState τ α) : FinStmt → Except Fault (GState τ α × Ret VErr Unit)
  | .writeIfNot flag field value =>
    match g.flag flag with
    | .error f => .error f
    | .ok true => .ok (g, .ok ())
    | .ok false =>
      match c.value value with
      | .error f => .error f
      | .ok (.ok v) => (g.write field v).map fun g => (g, .ok ())
      | .ok (.err e) => .ok (g, .err e)
      | .ok .panic => .ok (g, .panic)
  | .finalize ty visitor default =>
    match get visitor g.vis with
    | some (.visitor t) =>
      ((c.types ty).raw.finalize t (default.map fun d => (c.types d).default)).map fun (t, r) => (g.setVisitor visitor t, r)
    | _ => .error .panic

/-- The method `finalize` (`deserialize.rs:320-330`): the statements in order, until one fails. -/
def Prg.finalize {σ τ α : Type} (c : Prg σ τ α) : List FinStmt → GState τ α → Except Fault (GState τ α × Ret VErr Unit)
  | [], g => .ok (g, .ok ())
  | s :: l, g =>
    match c.runFin g s with
    | .error f => .error f
    | .ok (g, .ok ()) => c.finalize l g
    | .ok (g, r) => .ok (g, r)

/-- The initializers of `new` (`deserialize.rs:312-318`), in order. -/
def Prg.init {σ τ α : Type} (c : Prg σ τ α) : List (String × InitExpr) → GState τ α → Except Fault (GState τ α)
  | [], g => .ok g
  | (n, .false) :: l, g => c.init l { g with vis := g.vis ++ [(n, .flag false)] }
  | (n, .newVisitor ty field) :: l, g =>
    match get field g.mem with
    | some (.own none) => c.init l { vis := g.vis ++ [(n, .visitor (c.types ty).raw.new)], mem := set field (.lent n) g.mem }
    | _ => .error .ub

/-- `new`, applied to uninitialized memory.  `deserialize.rs:312-318`. -/
def Prg.new {σ τ α : Type} (c : Prg σ τ α) : Except Fault (GState τ α) :=
  c.init c.code.inits { vis := [], mem := c.decl.map fun f => (f.1, .own none) }

/-- What the memory of a field holds.  `(*self.out).#field`, `deserialize.rs:29`. -/
def Prg.cellOut {σ τ α : Type} (c : Prg σ τ α) (g : GState τ α) (field : String) : Option α :=
  match get field g.mem with
  | some (.own cell) => cell
  | some (.lent n) =>
    match c.visitor g n with
    | .ok (raw, t) => raw.out t
    | .error _ => none
  | none => none

/-- What the given fields of the struct hold.  `*self.out`, `deserialize.rs:279,328`. -/
def Prg.outs {σ τ α : Type} (c : Prg σ τ α) (g : GState τ α) : List (String × String) → Option (List α)
  | [] => some []
  | f :: l =>
    match c.cellOut g f.1, c.outs g l with
    | some v, some vs => some (v :: vs)
    | _, _ => none

/-- The generated visitor.  (`new` does not fail, so the state given for failure does not matter.)  `deserialize.rs:284-330`. -/
def Prg.raw {σ τ α : Type} (c : Prg σ τ α) : Raw σ (GState τ α) (List α) where
  new :=
    match c.new with
    | .ok g => g
    | .error _ => { vis := [], mem := [] }
  attr := c.attribute
  characters := c.characters
  element := c.element
  finalize g _ := c.finalize c.code.finalize g
  out g := c.outs g c.decl

/-! ### Enums -/

/-- The generated code for an enum with what it refers to: the types of payloads by variant, and the implementations for types.  `deserialize.rs:401-469`. -/
structure EPrg (σ τ α : Type) where
  code : EnumCode
  payload : String → Option String
  types : String → TypeImpl σ τ α

/-- The visitor generated for an enum with its memory (`deserialize.rs:404-407`): the variant and its payload. -/
structure GEState (α : Type) where
  initialized : Bool
  cell : Option (String × Option α)

/-- The implementation for the payload of a variant.  `deserialize.rs:364,388`. -/
def EPrg.typeOf {σ τ α : Type} (c : EPrg σ τ α) (variant : String) : Except Fault (TypeImpl σ τ α) :=
  match c.payload variant with
  | some ty => .ok (c.types ty)
  | none => .error .panic

/-- The `match` on the value held and what follows it (`deserialize.rs:418-427`). -/
def EPrg.runInit {σ τ α : Type} (c : EPrg σ τ α) (st : GEState α) (info : ElemInfo) (found : Option Nat) (variant : String)
    (payload : Option α) : List InitArm → Except Fault (Offer σ (GEState α))
  | [] => .error .panic
  | a :: as =>
    if a.variant = variant then
      if found = some a.index then
        match a.payload, payload with
        | false, none => .ok (.take (.done (.ok (st, .ok ()))))
        | true, some p =>
          match c.typeOf variant with
          | .error f => .error f
          | .ok impl => .ok (.take ((impl.field.update p info).map fun (p, r) => .ok ({ st with cell := some (variant, some p) }, r)))
        | _, _ => .error .panic
      else if a.payload = payload.isSome then
        match found with
        | none => .ok (.take (.done (.ok (st, .ok ()))))
        | some _ =>
          match c.code.elements[a.index]? with
          | none => .error .panic
          | some e => .ok (.take (.done (.ok (st, .err (.wrap (.unexpectedElement info.name.expanded e))))))
      else .error .panic
    else c.runInit st info found variant payload as

/-- The `match` on the index found when nothing is held (`deserialize.rs:429-435`). -/
def EPrg.runUninit {σ τ α : Type} (c : EPrg σ τ α) (st : GEState α) (info : ElemInfo) (i : Nat) :
    List UninitArm → Except Fault (Offer σ (GEState α))
  | [] => .ok (.back st)
  | a :: as =>
    if a.index = i then
      if a.payload then
        match c.typeOf a.variant with
        | .error f => .error f
        | .ok impl => .ok (.take ((impl.field.init info).map fun r =>
            match r with
            | .ok p => (Open.write st.cell (a.variant, some p)).map fun cell => ({ initialized := true, cell := cell }, .ok ())
            | .err e => .ok (st, .err e)
            | .panic => .ok (st, .panic)))
      else .ok (.take (.done ((Open.write st.cell (a.variant, none)).map fun cell => ({ initialized := true, cell := cell }, .ok ()))))
    else c.runUninit st info i as

/-- The method `element` (`deserialize.rs:410-436`). -/
def EPrg.element {σ τ α : Type} (c : EPrg σ τ α) (st : GEState α) (info : ElemInfo) : Except Fault (Offer σ (GEState α)) :=
  match find info.name.expanded c.code.elements with
  | .error f => .error f
  | .ok found =>
    if st.initialized then
      match st.cell with
      | none => .error .ub
      | some (v, p) => c.runInit st info found v p c.code.initialized
    else
      match found with
      | none => .ok (.back st)
      | some i => c.runUninit st info i c.code.uninitialized

/-- The method `finalize` (`deserialize.rs:448-461`). -/
def EPrg.finalize {σ τ α : Type} (c : EPrg σ τ α) (st : GEState α) (default : Option (Ret Empty (String × Option α))) :
    Except Fault (GEState α × Ret VErr Unit) :=
  if st.initialized then .ok (st, .ok ())
  else
    match default with
    | some (.ok d) => (Open.write st.cell d).map fun cell => ({ st with cell := cell }, .ok ())
    | some _ => .ok (st, .panic)
    | none => .ok (st, .err (.wrap (.cantBeEmpty c.code.ident)))

/-- The visitor generated for an enum.  `deserialize.rs:404-462`. -/
def EPrg.raw {σ τ α : Type} (c : EPrg σ τ α) : Raw σ (GEState α) (String × Option α) where
  new := { initialized := false, cell := none }
  attr st _ value := .ok (st, .ok (some value))
  characters st s _ := .ok (st, .ok (some s))
  element := c.element
  finalize := c.finalize
  out st := st.cell

end SX.Gen
