import Verif.Model.Types
import Verif.Model.Namespaces

/-
Model of the front end of the derive macros: `static-xml-derive/src/common.rs`, i.e. how the attributes on types, fields and
variants are understood.  Input is what `syn` makes of a declaration; Rust types are left out, except for the number of fields of
variants.  Error messages are reduced to their kind and the strings in them; the code only ever asks whether there are any
(`lib.rs:22-29`).
-/
namespace SX

/-- `syn::Lit`: a string literal (its value), or another literal.  As used in `common.rs:674`. -/
inductive Lit where
  | str (s : String)
  | other
  deriving DecidableEq, Repr

/-- `syn::NestedMeta`: a path, a name-value pair, or something else (a nested list or a literal).  Paths are given by
`path.get_ident()`, `none` if it is not a single identifier.  As used in `common.rs:386-404,545-560,627-641`. -/
inductive NMeta where
  | path (ident : Option String)
  | nameValue (ident : Option String) (lit : Lit)
  | other
  deriving DecidableEq, Repr

/-- `syn::Attribute`: one for another macro, `#[static_xml(...)]`, another use of `static_xml`, or one `syn` can't parse.  As used in `common.rs:499-512`. -/
inductive Attr where
  | foreign
  | list (items : List NMeta)
  | notList
  | invalid
  deriving DecidableEq, Repr

/-- The errors pushed in `common.rs` (and `serialize.rs:162`, `deserialize.rs:477`). -/
inductive MErr where
  | expectedList
  | invalid
  | notUnderstood
  | notString
  | reassign (pfx old new : String)
  | duplicatePrefix (old new : String)
  | prefixNotFound (pfx : String)
  | defaultFlatten
  | exclusive
  | manyText
  | unnamedFields
  | variantFields
  | unsupported
  | redundantMode
  | unknownMode
  | noMode
  | badWhitespace
  | unknownRename
  | unknownFields
  | duplicateUnknown
  | knownFields
  deriving DecidableEq, Repr

/-- `common.rs:497-514`: `get_meta_items`. -/
def getMetaItems : List Attr → List MErr → List NMeta × List MErr
  | [], errs => ([], errs)
  | .foreign :: l, errs => getMetaItems l errs
  | .list items :: l, errs =>
    let (rest, errs) := getMetaItems l errs
    (items ++ rest, errs)
  | .notList :: l, errs => getMetaItems l (errs ++ [.expectedList])
  | .invalid :: l, errs => getMetaItems l (errs ++ [.invalid])

/-- `char::is_whitespace` (std): Unicode `White_Space`. -/
def isRustWs (c : Char) : Bool :=
  let n := c.toNat
  (9 ≤ n && n ≤ 13) || n == 32 || n == 0x85 || n == 0xA0 || n == 0x1680 || (0x2000 ≤ n && n ≤ 0x200A) || n == 0x2028 || n == 0x2029 ||
    n == 0x202F || n == 0x205F || n == 0x3000

/-- `str::trim` (std). -/
def rustTrim (s : String) : String := String.ofList (trimMatches isRustWs s.toList)

/-- `str::split_once(": ")` (std) on characters: what is before and after the first occurrence. -/
def splitColonL : List Char → Option (List Char × List Char)
  | [] => none
  | ':' :: ' ' :: r => some ([], r)
  | c :: r => (splitColonL r).map fun x => (c :: x.1, x.2)

/-- `str::split_once(": ")` (std). -/
def splitColon (s : String) : Option (String × String) := (splitColonL s.toList).map fun x => (String.ofList x.1, String.ofList x.2)

/-- `common.rs:259-264`: `Name`, without `ident`. -/
structure MName where
  loc : String
  pfx : Option String
  ns : Option String
  deriving DecidableEq, Repr

/-- `common.rs:267-274`: `Name::from_ident`; `ident` is `Ident::to_string()` (for raw identifiers that includes `r#`). -/
def MName.fromIdent (ident : String) : MName := { loc := ident, pfx := none, ns := none }

/-- `common.rs:322-346`: `Namespaces::add_internal`. -/
def addInternal (m : SMap String) (pfx urlUntrimmed : String) (errs : List MErr) : SMap String × List MErr :=
  let url := rustTrim urlUntrimmed
  match m.get pfx with
  | none => (SMap.insertNew pfx url m, errs)
  | some old => (m, errs ++ [.reassign pfx old url])

/-- `common.rs:297-314`: `Namespaces::add_namespace`, on the string's value. -/
def addNamespace (m : SMap String) (value : String) (errs : List MErr) : Except Fault (SMap String × List MErr) :=
  match splitColon value with
  | some (p, u) =>
    if p.toList.take 3 == "xml".toList then
      if rustTrim p = "xml" ∧ rustTrim u = xmlNs then .ok (m, errs) else .error .panic
    else .ok (addInternal m (rustTrim p) u errs)
  | none => .ok (addInternal m "" value errs)

/-- `common.rs:316-320`: `Namespaces::add_default_namespace`, on the string's value. -/
def addDefaultNamespace (m : SMap String) (value : String) (errs : List MErr) : SMap String × List MErr :=
  addInternal m "" (rustTrim value) errs

/-- `common.rs:350-376`: `Namespaces::process_prefix` (with `with_lit_str`, `common.rs:669-685`). -/
def processPrefix (m : SMap String) (lit : Lit) (name : MName) (errs : List MErr) : MName × List MErr :=
  match lit with
  | .other => (name, errs ++ [.notString])
  | .str s =>
    let p := rustTrim s
    match name.pfx with
    | some old => (name, errs ++ [.duplicatePrefix old p])
    | none =>
      let name := { name with pfx := some p }
      match m.get p with
      | some u => ({ name with ns := some u }, errs)
      | none =>
        if p = "xml" then ({ name with ns := some xmlNs }, errs)
        else if p ≠ "" then (name, errs ++ [.prefixNotFound p])
        else (name, errs)

/-- The state of the loop in `ElementAttr::new`.  `common.rs:381-383`. -/
structure TypeState where
  name : MName
  namespaces : SMap String
  pfx : Option Lit
  errs : List MErr

/-- `common.rs:384-407`: one item of the loop in `ElementAttr::new`. -/
def typeItem (s : TypeState) : NMeta → Except Fault TypeState
  | .nameValue (some "rename") (.str v) => .ok { s with name := { s.name with loc := v } }
  | .nameValue (some "rename") .other => .ok { s with errs := s.errs ++ [.notString] }
  | .nameValue (some "prefix") lit => .ok { s with pfx := some lit }
  | .nameValue (some "namespace") (.str v) =>
    match addNamespace s.namespaces v s.errs with
    | .ok (m, errs) => .ok { s with namespaces := m, errs := errs }
    | .error f => .error f
  | .nameValue (some "namespace") .other => .ok { s with errs := s.errs ++ [.notString] }
  | .nameValue (some "default_namespace") (.str v) =>
    .ok { s with namespaces := (addDefaultNamespace s.namespaces v s.errs).1, errs := (addDefaultNamespace s.namespaces v s.errs).2 }
  | .nameValue (some "default_namespace") .other => .ok { s with errs := s.errs ++ [.notString] }
  | _ => .ok { s with errs := s.errs ++ [.notUnderstood] }

/-- `common.rs:384-407`: the loop in `ElementAttr::new`. -/
def typeLoop : List NMeta → TypeState → Except Fault TypeState
  | [], s => .ok s
  | i :: l, s =>
    match typeItem s i with
    | .ok s => typeLoop l s
    | .error f => .error f

/-- `common.rs:249-253`: `ElementAttr`. -/
structure MAttr where
  name : MName
  namespaces : SMap String

/-- `common.rs:380-411`: `ElementAttr::new`. -/
def elementAttr (ident : String) (attrs : List Attr) (errs : List MErr) : Except Fault (MAttr × List MErr) :=
  let (items, errs) := getMetaItems attrs errs
  match typeLoop items { name := .fromIdent ident, namespaces := [], pfx := none, errs := errs } with
  | .error f => .error f
  | .ok s =>
    match s.pfx with
    | none => .ok ({ name := s.name, namespaces := s.namespaces }, s.errs)
    | some lit =>
      let (name, errs) := processPrefix s.namespaces lit s.name s.errs
      .ok ({ name := name, namespaces := s.namespaces }, errs)

/-- `common.rs:518-523`: `ElementFieldMode`, without the positions in tables (see `structTable`). -/
inductive Mode where
  | element
  | attribute
  | text
  | flatten
  deriving DecidableEq, Repr

/-- `common.rs:526-532`: `ElementField`, without the Rust type. -/
structure MField where
  ident : String
  mode : Mode
  default : Bool
  name : MName
  deriving DecidableEq, Repr

/-- The state of the loop in `ElementField::new`.  `common.rs:537-542`. -/
structure FieldState where
  «attribute» : Bool
  default : Bool
  flatten : Bool
  text : Bool
  name : MName
  errs : List MErr

/-- `common.rs:543-563`: one item of the loop in `ElementField::new`. -/
def fieldItem (m : SMap String) (s : FieldState) : NMeta → FieldState
  | .path (some "attribute") => { s with «attribute» := true }
  | .path (some "default") => { s with default := true }
  | .path (some "flatten") => { s with flatten := true }
  | .path (some "text") => { s with text := true }
  | .nameValue (some "rename") (.str v) => { s with name := { s.name with loc := v } }
  | .nameValue (some "rename") .other => { s with errs := s.errs ++ [.notString] }
  | .nameValue (some "prefix") lit =>
    { s with name := (processPrefix m lit s.name s.errs).1, errs := (processPrefix m lit s.name s.errs).2 }
  | _ => { s with errs := s.errs ++ [.notUnderstood] }

/-- A field of a declaration: `syn::Field`, without its type.  As used in `common.rs:536-543`. -/
structure DField where
  ident : String
  attrs : List Attr

/-- `common.rs:536-598`: `ElementField::new`. -/
def elementField (m : SMap String) (f : DField) (errs : List MErr) : Option MField × List MErr :=
  let (items, errs) := getMetaItems f.attrs errs
  let s := items.foldl (fieldItem m)
    { «attribute» := false, default := false, flatten := false, text := false, name := .fromIdent f.ident, errs := errs }
  if s.attribute && !s.flatten && !s.text then (some { ident := f.ident, mode := .attribute, default := s.default, name := s.name }, s.errs)
  else if !s.attribute && !s.flatten && !s.text then (some { ident := f.ident, mode := .element, default := s.default, name := s.name }, s.errs)
  else if !s.attribute && s.flatten && !s.text then
    if s.default then (none, s.errs ++ [.defaultFlatten])
    else (some { ident := f.ident, mode := .flatten, default := s.default, name := s.name }, s.errs)
  else if !s.attribute && !s.flatten && s.text then (some { ident := f.ident, mode := .text, default := s.default, name := s.name }, s.errs)
  else (none, s.errs ++ [.exclusive])

/-- `common.rs:433-437`: `flat_map` over the fields. -/
def elementFields (m : SMap String) : List DField → List MErr → List MField × List MErr
  | [], errs => ([], errs)
  | f :: l, errs =>
    let (r, errs) := elementField m f errs
    let (rest, errs) := elementFields m l errs
    (r.toList ++ rest, errs)

/-- `syn::Fields` of a variant; of unnamed fields their number.  As used in `common.rs:703-728`. -/
inductive VFields where
  | unit
  | unnamed (n : Nat)
  | named
  deriving DecidableEq, Repr

/-- `syn::Variant`, without types.  As used in `common.rs:624-650`. -/
structure DVariant where
  ident : String
  attrs : List Attr
  fields : VFields

/-- `syn::Data`: a struct with named fields, another struct, an enum, or a union.  As used in `common.rs:432-445`, `deserialize.rs:473-476`, `parse.rs:138-140`. -/
inductive DData where
  | named (fields : List DField)
  | unnamed
  | enm (variants : List DVariant)
  | union

/-- `syn::DeriveInput`.  As used in `deserialize.rs:472-484`. -/
structure Decl where
  ident : String
  attrs : List Attr
  data : DData

/-- `common.rs:416-423`: `ElementStruct`, without the tables (see `structTable`). -/
structure MStruct where
  attr : MAttr
  fields : List MField

/-- `common.rs:426-491`: `ElementStruct::new`; `none` is `Err(())`. -/
def elementStruct (ident : String) (attrs : List Attr) (data : Option (List DField)) (errs : List MErr) :
    Except Fault (Option MStruct × List MErr) :=
  match elementAttr ident attrs errs with
  | .error f => .error f
  | .ok (attr, errs) =>
    match data with
    | none => .ok (none, errs ++ [.unnamedFields])
    | some fields =>
      let (fields, errs) := elementFields attr.namespaces fields errs
      if 2 ≤ (fields.filter fun f => f.mode == .text).length then .ok (none, errs ++ [.manyText])
      else .ok (some { attr := attr, fields := fields }, errs)

/-- `common.rs:610-614`: `ElementVariant`; `payload`: does it have a type? -/
structure MVariant where
  ident : String
  name : MName
  payload : Bool
  deriving DecidableEq, Repr

/-- `common.rs:625-642`: the loop over the items of a variant; `none` if it is skipped. -/
def variantLoop (m : SMap String) : List NMeta → MName → List MErr → Option MName × List MErr
  | [], name, errs => (some name, errs)
  | .nameValue (some "rename") (.str v) :: l, name, errs => variantLoop m l { name with loc := v } errs
  | .nameValue (some "rename") .other :: l, name, errs => variantLoop m l name (errs ++ [.notString])
  | .nameValue (some "prefix") lit :: l, name, errs =>
    variantLoop m l (processPrefix m lit name errs).1 (processPrefix m lit name errs).2
  | .path (some "skip") :: _, _, errs => (none, errs)
  | _ :: l, name, errs => variantLoop m l name (errs ++ [.notUnderstood])

/-- `common.rs:623-652` for one variant, with `optional_unnamed_field` (`common.rs:712-728`): `none` if skipped (and then the flag is set) or wrong. -/
def elementVariant (m : SMap String) (v : DVariant) (errs : List MErr) : Option MVariant × Bool × List MErr :=
  let (items, errs) := getMetaItems v.attrs errs
  match variantLoop m items (.fromIdent v.ident) errs with
  | (none, errs) => (none, true, errs)
  | (some name, errs) =>
    if v.fields = .unit then (some { ident := v.ident, name := name, payload := false }, false, errs)
    else if v.fields = .unnamed 1 then (some { ident := v.ident, name := name, payload := true }, false, errs)
    else (none, false, errs ++ [.variantFields])

/-- `common.rs:621-652`: `filter_map` over the variants; was any skipped? -/
def elementVariants (m : SMap String) : List DVariant → List MErr → List MVariant × Bool × List MErr
  | [], errs => ([], false, errs)
  | v :: l, errs =>
    let (r, skip, errs) := elementVariant m v errs
    let (rest, skip', errs) := elementVariants m l errs
    (r.toList ++ rest, skip || skip', errs)

/-- `common.rs:601-608`: `ElementEnum`, variants in declaration order (they are sorted afterwards, see `enumTable`). -/
structure MEnum where
  attr : MAttr
  variants : List MVariant
  hasSkipped : Bool

/-- `common.rs:617-666`: `ElementEnum::new`. -/
def elementEnum (ident : String) (attrs : List Attr) (variants : List DVariant) (errs : List MErr) : Except Fault (MEnum × List MErr) :=
  match elementAttr ident attrs errs with
  | .error f => .error f
  | .ok (attr, errs) =>
    let (vs, skip, errs) := elementVariants attr.namespaces variants errs
    .ok ({ attr := attr, variants := vs, hasSkipped := skip }, errs)

/-- What the `Serialize` and `Deserialize` macros work on.  `ElementStruct` and `ElementEnum`, `common.rs:416-423,601-608`. -/
inductive Described where
  | strct (s : MStruct)
  | enm (e : MEnum)

/-- `serialize.rs:155-169` and `deserialize.rs:470-484`, up to the description of the type; with the errors, which are compile errors of
the crate using the macro (`lib.rs:22-29`).  The panic of `Deserialize` on text fields (`deserialize.rs:143`) is added by `describeDe`. -/
def describe (d : Decl) : Except Fault (Option Described × List MErr) :=
  match d.data with
  | .enm vs =>
    match elementEnum d.ident d.attrs vs [] with
    | .error f => .error f
    | .ok (e, errs) => .ok (some (.enm e), errs)
  | .named fields =>
    match elementStruct d.ident d.attrs (some fields) [] with
    | .error f => .error f
    | .ok (s, errs) => .ok (s.map .strct, errs)
  | .unnamed =>
    match elementStruct d.ident d.attrs none [] with
    | .error f => .error f
    | .ok (s, errs) => .ok (s.map .strct, errs)
  | .union => .ok (none, [.unsupported])

/-- `deserialize.rs:470-484` with `deserialize.rs:139-145`: the `Deserialize` macro, which panics on text fields. -/
def describeDe (d : Decl) : Except Fault (Option Described × List MErr) :=
  match describe d with
  | .ok (some (.strct s), errs) => if s.fields.any fun f => f.mode == .text then .error .panic else .ok (some (.strct s), errs)
  | r => r

/-! ### The description as types -/

/-- What a field's Rust type gives, for each way to use it.  Not in the code, where types are tokens (`deserialize.rs:40,66,93`) and the compiler finds the implementations of the traits of `de/mod.rs:685-733`. -/
structure FieldTypes where
  element : Slot
  «attribute» : Bool × TextTy
  flatten : Nat
  text : TextTy
  default : Val

/-- A described name, as used by the generated code (`common.rs:276-293`). -/
def MName.declared (n : MName) : DName := { ns := n.ns, loc := n.loc }

/-- The field the generated code works on.  `common.rs:525-532`, with the default value of `deserialize.rs:94-98`. -/
def MField.toField (ty : FieldTypes) (f : MField) : Field where
  name := f.name.declared
  kind := match f.mode with
    | .element => .element ty.element
    | .attribute => .attribute ty.attribute.1 ty.attribute.2
    | .flatten => .flatten ty.flatten
    | .text => .text ty.text
  default := if f.default then some ty.default else none

/-- The struct the generated code works on; `ty` gives the Rust types of fields by their identifiers.  `common.rs:416-423`. -/
def MStruct.toDef (ty : String → FieldTypes) (s : MStruct) : StructDef where
  root := s.attr.name.declared
  namespaces := s.attr.namespaces
  fields := s.fields.map fun f => f.toField (ty f.ident)

/-- A variant of the Rust enum; one that is not in the description is skipped.  `common.rs:610-614`, `serialize.rs:130-134`. -/
def MEnum.variant (ty : String → Slot) (e : MEnum) (v : DVariant) : Variant :=
  match e.variants.find? fun w => w.ident == v.ident with
  | some w => { name := w.name.declared, slot := if w.payload then some (ty v.ident) else none, skip := false }
  | none => { name := { ns := none, loc := v.ident }, slot := if v.fields = .unit then none else some (ty v.ident), skip := true }

/-- The enum the generated code works on; `vs` are the variants of the Rust enum, `ty` gives the Rust types of their payloads.  `common.rs:601-608`. -/
def MEnum.toDef (ident : String) (vs : List DVariant) (ty : String → Slot) (e : MEnum) : EnumDef where
  ident := ident
  root := e.attr.name.declared
  namespaces := e.attr.namespaces
  variants := vs.map (e.variant ty)

/-! ### Text types -/

/-- `common.rs:113-126`: `TextMode`. -/
inductive TextMode where
  | std
  | restriction
  | union
  deriving DecidableEq, Repr

/-- The state of the loop in `TextAttr::new`.  `common.rs:83-84`. -/
structure TextState where
  ws : WhiteSpace
  mode : Option TextMode
  errs : List MErr

/-- `common.rs:85-107`: one item of the loop in `TextAttr::new` (with `set_whitespace`, `common.rs:687-701`). -/
def textItem (s : TextState) : NMeta → TextState
  | .nameValue (some "whitespace") (.str "preserve") => { s with ws := .preserve }
  | .nameValue (some "whitespace") (.str "replace") => { s with ws := .replace }
  | .nameValue (some "whitespace") (.str "collapse") => { s with ws := .collapse }
  | .nameValue (some "whitespace") (.str _) => { s with errs := s.errs ++ [.badWhitespace] }
  | .nameValue (some "whitespace") .other => { s with errs := s.errs ++ [.notString] }
  | .nameValue (some "mode") lit =>
    if s.mode.isSome then { s with errs := s.errs ++ [.redundantMode] }
    else
      match lit with
      | .str "std" => { s with mode := some .std }
      | .str "restriction" => { s with mode := some .restriction }
      | .str "union" => { s with mode := some .union }
      | .str _ => { s with errs := s.errs ++ [.unknownMode] }
      | .other => { s with errs := s.errs ++ [.notString] }
  | _ => { s with errs := s.errs ++ [.notUnderstood] }

/-- `common.rs:82-110`: `TextAttr::new`. -/
def textAttr (attrs : List Attr) (errs : List MErr) : TextState :=
  let (items, errs) := getMetaItems attrs errs
  items.foldl textItem { ws := .preserve, mode := none, errs := errs }

/-- The state of the loop over the items of a restriction variant.  `common.rs:155-156`. -/
structure RestrictionState where
  text : Option String
  unknown : Bool
  errs : List MErr

/-- `common.rs:157-167`: one item of the loop in `parse_restriction_fields`. -/
def restrictionItem (s : RestrictionState) : NMeta → RestrictionState
  | .path (some "unknown") => { s with unknown := true }
  | .nameValue (some "rename") (.str v) => { s with text := some v }
  | .nameValue (some "rename") .other => { s with errs := s.errs ++ [.notString] }
  | _ => { s with errs := s.errs ++ [.notUnderstood] }

/-- `common.rs:148-207` (`parse_restriction_fields`): the variants of a restriction (`some text` if known, `none` if unknown); `seen`: has there been
an unknown variant?  `single_unnamed_field` (`common.rs:703-710`) is the comparison with `unnamed 1`, here and in `unionVariants`. -/
def restrictionVariants : List DVariant → Bool → List MErr → List (Option String) × List MErr
  | [], _, errs => ([], errs)
  | v :: l, seen, errs =>
    let (items, errs) := getMetaItems v.attrs errs
    let s := items.foldl restrictionItem { text := none, unknown := false, errs := errs }
    if s.unknown then
      let errs := s.errs ++ (if s.text.isSome then [.unknownRename] else []) ++ (if v.fields = .unnamed 1 then [] else [.unknownFields]) ++
        (if seen then [.duplicateUnknown] else [])
      let (rest, errs) := restrictionVariants l true errs
      (none :: rest, errs)
    else
      let errs := s.errs ++ (if v.fields = .unit then [] else [.knownFields])
      let (rest, errs) := restrictionVariants l seen errs
      (some (s.text.getD v.ident) :: rest, errs)

/-- `common.rs:211-235` (`parse_union_fields`): the variants of a union, by position. -/
def unionVariants : List DVariant → Nat → List MErr → List Nat × List MErr
  | [], _, errs => ([], errs)
  | v :: l, i, errs =>
    let (items, errs) := getMetaItems v.attrs errs
    let errs := errs ++ items.map fun _ => .notUnderstood
    if v.fields = .unnamed 1 then
      let (rest, errs) := unionVariants l (i + 1) errs
      (i :: rest, errs)
    else unionVariants l (i + 1) (errs ++ [.variantFields])

/-- What the `ParseText` and `ToText` macros work on.  `common.rs:47-66,133-137`: `TextEnum`, or `TextAttr` for `std` (`parse.rs:133-135`). -/
inductive TextDescribed where
  | std (ws : WhiteSpace)
  | restriction (ws : WhiteSpace) (variants : List (Option String))
  | union (ws : WhiteSpace) (variants : List Nat)
  deriving DecidableEq, Repr

/-- `parse.rs:122-146`, `to_text.rs:79-104`, up to the description of the type; with the errors. -/
def describeText (d : Decl) : Option TextDescribed × List MErr :=
  let s := textAttr d.attrs []
  match s.mode with
  | none => (none, s.errs ++ [.noMode])
  | some .std => (some (.std s.ws), s.errs)
  | some mode =>
    match d.data with
    | .enm vs =>
      if mode = .restriction then
        (some (.restriction s.ws (restrictionVariants vs false s.errs).1), (restrictionVariants vs false s.errs).2)
      else (some (.union s.ws (unionVariants vs 0 s.errs).1), (unionVariants vs 0 s.errs).2)
    | _ => (none, s.errs ++ [.unsupported])

end SX
