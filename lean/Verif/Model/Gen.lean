import Verif.Model.Macro

/-
The code that `#[derive(Deserialize)]` emits, as syntax: `static-xml-derive/src/deserialize.rs`, function by function.  In
`Model/DeriveDe.lean` and `Model/Open.lean` the generated code is modelled by what it does; here are the tokens themselves, in so
far as they vary: identifiers, types, indices, names, and which of the quoted fragments are used.  `Model/GenRun.lean` says what
such code does.  What is the same for all types (`impl` headers, signatures, comments) is not represented.
-/
namespace SX.Gen

/-- `usize::MAX`, the placeholder of `common.rs:565-572`. -/
def usizeMax : Nat := 18446744073709551615

/-- `common.rs:518-523`: `ElementFieldMode`. -/
inductive GMode where
  | element (sortedPos : Nat)
  | attribute (sortedPos : Nat)
  | text
  | flatten
  deriving DecidableEq, Repr

/-- `common.rs:526-532`: `ElementField`.  `ty`: the tokens of `inner.ty`. -/
structure GField where
  ident : String
  ty : String
  mode : GMode
  default : Bool
  name : DName
  deriving DecidableEq, Repr

/-- `common.rs:416-423`: `ElementStruct`. -/
structure GStruct where
  ident : String
  fields : List GField
  sortedAttributes : List Nat
  sortedElements : List Nat
  textFieldPos : Option Nat

/-- `common.rs:563-589`: the mode of a new field, with the placeholder. -/
def newMode : Mode → GMode
  | .element => .element usizeMax
  | .attribute => .attribute usizeMax
  | .text => .text
  | .flatten => .flatten

/-- A field as `ElementField::new` returns it (`common.rs:591-597`); `ty` gives the types of the fields of the Rust struct. -/
def newField (ty : String → String) (f : MField) : GField where
  ident := f.ident
  ty := ty f.ident
  mode := newMode f.mode
  default := f.default
  name := f.name.declared

/-- `common.rs:446-467`: `sorted_attributes`, `sorted_elements` and `text_field_pos` after the loop, from position `i`. -/
def partitionFields : List GField → Nat → List Nat × List Nat × Option Nat
  | [], _ => ([], [], none)
  | f :: fs, i =>
    let (as, es, t) := partitionFields fs (i + 1)
    match f.mode with
    | .attribute _ => (i :: as, es, t)
    | .element _ => (as, i :: es, t)
    | .text => (as, es, some i)
    | .flatten => (as, es, t)

/-- `fields[p].name.expanded()` (`common.rs:468-469`).  The index is always in range; the model gives the empty name otherwise. -/
def nameAt (fields : List GField) (p : Nat) : EName :=
  match fields[p]? with
  | some f => f.name.expanded
  | none => { ns := "", loc := "" }

/-- `common.rs:470-475,476-481`: the loops which set the positions, `fields[p].mode = mode(i)` for the `i`-th element `p`. -/
def setPositions (mode : Nat → GMode) : List Nat → Nat → List GField → List GField
  | [], _, fields => fields
  | p :: ps, i, fields => setPositions mode ps (i + 1) (fields.modify p fun f => { f with mode := mode i })

/-- `common.rs:446-490`: the rest of `ElementStruct::new`. -/
def GStruct.new (ident : String) (fields : List GField) : GStruct :=
  let (as, es, t) := partitionFields fields 0
  let as := sortBy (fun p q => (nameAt fields p).cmp (nameAt fields q)) as
  let es := sortBy (fun p q => (nameAt fields p).cmp (nameAt fields q)) es
  { ident := ident, fields := setPositions .element es 0 (setPositions .attribute as 0 fields), sortedAttributes := as,
    sortedElements := es, textFieldPos := t }

/-- The description that `deserialize.rs` works on, from what `ElementStruct::new` found in the declaration. -/
def GStruct.ofDescribed (ident : String) (ty : String → String) (s : MStruct) : GStruct :=
  GStruct.new ident (s.fields.map (newField ty))

/-- `format_ident!("{}…", ident)`: the macro of the crate `quote` removes a leading `r#`.  E.g. `deserialize.rs:18,38,39`. -/
def unraw (ident : String) : String :=
  match ident.toList with
  | 'r' :: '#' :: l => String.ofList l
  | _ => ident

/-- `format_ident!("{}_present", ident)`.  `deserialize.rs:38,80,101,117,171,201`. -/
def presentName (ident : String) : String := unraw ident ++ "_present"

/-- `format_ident!("{}_visitor", ident)`.  `deserialize.rs:18,39,64,133`. -/
def visitorName (ident : String) : String := unraw ident ++ "_visitor"

/-- The type of a field of the visitor.  `deserialize.rs:41-51`. -/
inductive VisTy where
  /-- `bool` -/
  | bool
  /-- `<#ty as RawDeserialize<'out>>::Visitor` -/
  | visitor (ty : String)
  deriving DecidableEq, Repr

/-- How a field of the visitor is initialized.  `deserialize.rs:67-83`. -/
inductive InitExpr where
  /-- `false` -/
  | false
  /-- `<#ty as RawDeserialize>::Visitor::new(addr_of_mut!((*out).#field) as &mut MaybeUninit<#ty>)` -/
  | newVisitor (ty : String) (field : String)
  deriving DecidableEq, Repr

/-- Statements of `element`.  `deserialize.rs:203-221`. -/
inductive Stmt where
  /-- `DeserializeElementField::update(&mut *addr_of_mut!((*self.out).#field), child)?;` -/
  | update (field : String)
  /-- `ptr::write(addr_of_mut!((*self.out).#field), DeserializeElementField::init(child)?);` -/
  | writeInit (field : String)
  /-- `self.#flag = true;` -/
  | set (flag : String)
  deriving DecidableEq, Repr

/-- An arm of the `match` in `element`: `Some(#index) if self.#guard => { #body; Ok(None) }`.  `deserialize.rs:203-221`. -/
structure ElemArm where
  index : Nat
  guard : Option String
  body : List Stmt
  deriving DecidableEq, Repr

/-- Statements of `attribute`.  `deserialize.rs:173-188`. -/
inductive AStmt where
  /-- `ptr::write(addr_of_mut!((*self.out).#field), DeserializeAttrField::init(value)?);` -/
  | writeInit (field : String)
  /-- `self.#flag = true;` -/
  | set (flag : String)
  deriving DecidableEq, Repr

/-- What an arm in `attribute` evaluates to, after its statements.  `deserialize.rs:175,186`. -/
inductive ATail where
  /-- `Err(VisitorError::duplicate_attribute(name))` -/
  | duplicate
  /-- `Ok(None)` -/
  | taken
  deriving DecidableEq, Repr

/-- An arm of the `match` in `attribute`.  `deserialize.rs:173-188`. -/
structure AttrArm where
  index : Nat
  guard : Option String
  body : List AStmt
  tail : ATail
  deriving DecidableEq, Repr

/-- The last arm, `_ => …`.  `deserialize.rs:239-249,291,302`. -/
inductive Fall where
  /-- `Ok(Some(child))`, `Ok(Some(value))` -/
  | back
  /-- `delegate_…(&mut [&mut self.#visitors, …], …)` -/
  | delegate (visitors : List String)
  deriving DecidableEq, Repr

/-- The method `characters`, if there is one.  `deserialize.rs:250-265`. -/
inductive Chars where
  /-- `self._text_buf.push_str(&s)` -/
  | textBuf
  | delegate (visitors : List String)
  deriving DecidableEq, Repr

/-- The value for a field which was not found.  `deserialize.rs:94-98,103-108,119-124`. -/
inductive ValExpr where
  /-- `<#ty as Default>::default()` -/
  | default (ty : String)
  /-- `<#ty as DeserializeElementField>::missing(&ELEMENTS[#p])?` -/
  | missingElement (ty : String) (p : Nat)
  /-- `<#ty as DeserializeAttrField>::missing(&ATTRIBUTES[#p])?` -/
  | missingAttribute (ty : String) (p : Nat)
  deriving DecidableEq, Repr

/-- Statements of `finalize`.  `deserialize.rs:99-144`. -/
inductive FinStmt where
  /-- `if !self.#flag { ptr::write(addr_of_mut!((*self.out).#field), #value) }` -/
  | writeIfNot (flag : String) (field : String) (value : ValExpr)
  /-- `<#ty as RawDeserialize>::Visitor::finalize(self.#visitor, Some(<#default as Default>::default))?;` or `None` -/
  | finalize (ty : String) (visitor : String) (default : Option String)
  deriving DecidableEq, Repr

/-- What `do_struct` emits.  `deserialize.rs:266-333`. -/
structure StructCode where
  visitorType : String
  /-- `const ATTRIBUTES` -/
  attributes : List EName
  /-- `const ELEMENTS` -/
  elements : List EName
  /-- The fields of the visitor, after `out` and `_phantom`. -/
  defs : List (String × VisTy)
  /-- Their initializers in `new`. -/
  inits : List (String × InitExpr)
  elementArms : List ElemArm
  elementFall : Fall
  attributeArms : List AttrArm
  attributeFall : Fall
  characters : Option Chars
  finalize : List FinStmt
  deriving DecidableEq, Repr

/-- `deserialize.rs:12-25`: `quote_flatten_visitors`. -/
def flattenVisitors (s : GStruct) : List String :=
  s.fields.filterMap fun f => if f.mode = .flatten then some (visitorName f.ident) else none

/-- `deserialize.rs:32-54`: `visitor_field_definitions`. -/
def visitorFieldDefinitions (s : GStruct) : List (String × VisTy) :=
  s.fields.filterMap fun f =>
    match f.mode with
    | .text => none
    | .flatten => some (visitorName f.ident, .visitor f.ty)
    | .element _ => some (presentName f.ident, .bool)
    | .attribute _ => some (presentName f.ident, .bool)

/-- `deserialize.rs:56-88`: `visitor_initializers`. -/
def visitorInitializers (s : GStruct) : List (String × InitExpr) :=
  s.fields.map fun f =>
    match f.mode with
    | .flatten => (visitorName f.ident, .newVisitor f.ty f.ident)
    | _ => (presentName f.ident, .false)

/-- `deserialize.rs:90-146` for one field; `todo!` for text. -/
def finalizeStmt (f : GField) : Except Fault FinStmt :=
  match f.mode with
  | .element p => .ok (.writeIfNot (presentName f.ident) f.ident (if f.default then .default f.ty else .missingElement f.ty p))
  | .attribute p => .ok (.writeIfNot (presentName f.ident) f.ident (if f.default then .default f.ty else .missingAttribute f.ty p))
  | .flatten => .ok (.finalize f.ty (visitorName f.ident) (if f.default then some f.ty else none))
  | .text => .error .panic

/-- `deserialize.rs:90-146`: `finalize_visitor_fields`. -/
def finalizeStmts : List GField → Except Fault (List FinStmt)
  | [] => .ok []
  | f :: fs =>
    match finalizeStmt f with
    | .error e => .error e
    | .ok st => (finalizeStmts fs).map (st :: ·)

/-- `deserialize.rs:148-154`: `attributes`. -/
def attributes (s : GStruct) : List EName := s.sortedAttributes.map (nameAt s.fields)

/-- `deserialize.rs:156-162`: `elements`. -/
def elements (s : GStruct) : List EName := s.sortedElements.map (nameAt s.fields)

/-- `deserialize.rs:164-191`: `attribute_match_branches`, from the `i`-th on.  `fields[p]` is always in range. -/
def attributeArms (s : GStruct) : List Nat → Nat → List AttrArm
  | [], _ => []
  | p :: ps, i =>
    match s.fields[p]? with
    | none => attributeArms s ps (i + 1)
    | some f =>
      { index := i, guard := some (presentName f.ident), body := [], tail := .duplicate } ::
      { index := i, guard := none, body := [.writeInit f.ident, .set (presentName f.ident)], tail := .taken } ::
      attributeArms s ps (i + 1)

/-- `deserialize.rs:193-224`: `element_match_branches`, from the `i`-th on.  `fields[p]` is always in range. -/
def elementArms (s : GStruct) : List Nat → Nat → List ElemArm
  | [], _ => []
  | p :: ps, i =>
    match s.fields[p]? with
    | none => elementArms s ps (i + 1)
    | some f =>
      { index := i, guard := some (presentName f.ident), body := [.update f.ident] } ::
      { index := i, guard := none, body := [.writeInit f.ident, .set (presentName f.ident)] } ::
      elementArms s ps (i + 1)

/-- `deserialize.rs:226-334`: `do_struct`. -/
def structCode (s : GStruct) : Except Fault StructCode :=
  match finalizeStmts s.fields with
  | .error e => .error e
  | .ok fin =>
    let fv := flattenVisitors s
    let fall := if fv.isEmpty then .back else .delegate fv
    .ok {
      visitorType := unraw s.ident ++ "Visitor"
      attributes := attributes s
      elements := elements s
      defs := visitorFieldDefinitions s
      inits := visitorInitializers s
      elementArms := elementArms s s.sortedElements 0
      elementFall := fall
      attributeArms := attributeArms s s.sortedAttributes 0
      attributeFall := fall
      characters := if s.textFieldPos.isSome then some .textBuf else if !fv.isEmpty then some (.delegate fv) else none
      finalize := fin }

/-- `common.rs:610-614`: `ElementVariant`. -/
structure GVariant where
  ident : String
  name : DName
  ty : Option String
  deriving DecidableEq, Repr

/-- `common.rs:601-608`: `ElementEnum`; `variants` sorted. -/
structure GEnum where
  ident : String
  variants : List GVariant
  hasSkipped : Bool

/-- `common.rs:654-665`: the rest of `ElementEnum::new`. -/
def GEnum.new (ident : String) (variants : List GVariant) (hasSkipped : Bool) : GEnum where
  ident := ident
  variants := sortBy (fun a b => a.name.cmpOpt b.name) variants
  hasSkipped := hasSkipped

/-- A variant as `ElementEnum::new` finds it (`common.rs:643-651`); `ty` gives the types of payloads. -/
def newVariant (ty : String → String) (v : MVariant) : GVariant where
  ident := v.ident
  name := v.name.declared
  ty := if v.payload then some (ty v.ident) else none

/-- The description that the macros work on, from what `ElementEnum::new` found in the declaration.  `common.rs:617-667`. -/
def GEnum.ofDescribed (ident : String) (ty : String → String) (e : MEnum) : GEnum :=
  GEnum.new ident (e.variants.map (newVariant ty)) e.hasSkipped

/-- Two arms of the `match` on the value which the enum holds (`deserialize.rs:344-372`):
`#ident::#variant if element_i == Some(#i) => { return Ok(None); }  #ident::#variant => #i`, or, with a payload,
`#ident::#variant(f) if element_i == Some(#i) => { update(f, child)?; return Ok(None); }  #ident::#variant(_) => #i`. -/
structure InitArm where
  variant : String
  payload : Bool
  index : Nat
  deriving DecidableEq, Repr

/-- An arm of the `match` on the name when the enum is not initialized (`deserialize.rs:373-393`):
`Some(#i) => { #ident::#variant }` or `Some(#i) => { #ident::#variant(init(child)?) }`. -/
structure UninitArm where
  index : Nat
  variant : String
  payload : Bool
  deriving DecidableEq, Repr

/-- What `do_enum` emits.  `deserialize.rs:401-469`. -/
structure EnumCode where
  ident : String
  visitorType : String
  /-- `const ELEMENTS` -/
  elements : List EName
  initialized : List InitArm
  uninitialized : List UninitArm
  deriving DecidableEq, Repr

/-- `deserialize.rs:344-372`: `initialized_match_arms`, from the `i`-th on. -/
def initArms : List GVariant → Nat → List InitArm
  | [], _ => []
  | v :: vs, i => { variant := v.ident, payload := v.ty.isSome, index := i } :: initArms vs (i + 1)

/-- `deserialize.rs:373-393`: `uninitialized_match_arms`, from the `i`-th on. -/
def uninitArms : List GVariant → Nat → List UninitArm
  | [], _ => []
  | v :: vs, i => { index := i, variant := v.ident, payload := v.ty.isSome } :: uninitArms vs (i + 1)

/-- `deserialize.rs:336-470`: `do_enum`. -/
def enumCode (e : GEnum) : EnumCode where
  ident := e.ident
  visitorType := unraw e.ident ++ "Visitor"
  elements := e.variants.map fun v => v.name.expanded
  initialized := initArms e.variants 0
  uninitialized := uninitArms e.variants 0

end SX.Gen
