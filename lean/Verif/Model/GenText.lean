import Verif.Model.Gen
import Verif.Model.Text

/-
What `derive(ParseText)` and `derive(ToText)` emit (`static-xml-derive/src/parse.rs`, `to_text.rs`), as syntax, and what it means.
-/
namespace SX.Gen

/-- `common.rs:47-73,237-246`: `TextEnum`, or a type of mode `std`.  The variants of a restriction have `some` text if known; `unknown` is the number
of the unknown variant.  The variants of a union have the name of the type of their field. -/
inductive GText where
  | std (ws : WhiteSpace)
  | restriction (ws : WhiteSpace) (variants : List (String × Option String)) (unknown : Option Nat)
  | union (ws : WhiteSpace) (variants : List (String × String))
  deriving DecidableEq, Repr

/-- `common.rs:181-188`: the number of the first unknown variant. -/
def unknownVariant : List (Option String) → Nat → Option Nat
  | [], _ => none
  | none :: _, i => some i
  | some _ :: l, i => unknownVariant l (i + 1)

/-- The identifiers of the variants of the given numbers, with the names of their types.  `common.rs:227-230`. -/
def unionIdents (ty : String → String) (vs : List DVariant) : List Nat → List (String × String)
  | [] => []
  | i :: l =>
    match vs[i]? with
    | some v => (v.ident, ty v.ident) :: unionIdents ty vs l
    | none => unionIdents ty vs l

/-- The description that the macros work on, from what `TextEnum::new` found in the declaration of an enum with the given variants.  `common.rs:129-145`. -/
def GText.ofDescribed (ty : String → String) (vs : List DVariant) : TextDescribed → GText
  | .std ws => .std ws
  | .restriction ws texts => .restriction ws ((vs.map fun v => v.ident).zip texts) (unknownVariant texts 0)
  | .union ws is => .union ws (unionIdents ty vs is)

/-- The last arm of the `match` in `parse` of a restriction.  `parse.rs:77-82`. -/
inductive TFall where
  /-- `_ => Ok(Self::#variant(text))` -/
  | unknown (variant : String)
  /-- `t => Err(no_such_variant(stringify!(#ident), t))` -/
  | noSuchVariant (ident : String)
  deriving DecidableEq, Repr

/-- What follows the normalization in `parse`.  `parse.rs:52-54,89-92,104-105`. -/
inductive ParseBody where
  /-- `match <#ty as ParseText>::parse(text.clone()) { Ok(r) => return Ok(Self::#variant(r)), Err(e) => errors.push(e) }` for each
  variant, then `Err(union_error(stringify!(#ident), errors))`. -/
  | union (attempts : List (String × String)) (ident : String)
  /-- `match text.as_str() { #text => Ok(Self::#variant), … }` -/
  | restriction (arms : List (String × String)) (fall : TFall)
  /-- `FromStr::from_str(text.as_str())` -/
  | std
  deriving DecidableEq, Repr

/-- What `derive(ParseText)` emits: `let text = normalize(text, #normalize);`, if at all, and the rest.  `parse.rs:48-57,85-95,100-108`. -/
structure ParseCode where
  normalize : Option WhiteSpace
  body : ParseBody
  deriving DecidableEq, Repr

/-- `parse.rs:111-120`: `normalize`. -/
def normalizeStmt : WhiteSpace → Option WhiteSpace
  | .preserve => none
  | .replace => some .replace
  | .collapse => some .collapse

/-- `parse.rs:66-76`: the arms for the known variants. -/
def knownArms : List (String × Option String) → List (String × String)
  | [] => []
  | (v, some t) :: l => (t, v) :: knownArms l
  | (_, none) :: l => knownArms l

/-- `parse.rs:77-82`: the last arm. -/
def fallOf (ident : String) (vs : List (String × Option String)) (unknown : Option Nat) : TFall :=
  match unknown.bind fun i => vs[i]? with
  | some (v, _) => .unknown v
  | none => .noSuchVariant ident

/-- `parse.rs:16-109`: `do_enum`, `do_union`, `do_restriction`, `do_std`.  (`variants[i]` is always in range.) -/
def parseCode (ident : String) : GText → ParseCode
  | .std ws => { normalize := normalizeStmt ws, body := .std }
  | .union ws vs => { normalize := normalizeStmt ws, body := .union vs ident }
  | .restriction ws vs unknown => {
      normalize := normalizeStmt ws
      body := .restriction (knownArms vs) (fallOf ident vs unknown) }

/-- An arm of the `match` in `to_text`.  `to_text.rs:25,47-51`. -/
inductive TextArm where
  /-- `Self::#variant(ref f) => ToText::to_text(f)` -/
  | field (variant : String)
  /-- `Self::#variant => #text` -/
  | known (variant : String) (text : String)
  /-- `Self::#variant(text) => AsRef::<str>::as_ref(text)` -/
  | unknown (variant : String)
  deriving DecidableEq, Repr

/-- What `derive(ToText)` emits: a `match`, or `ToString::to_string(self)`.  `to_text.rs:33-35,61-63,73`. -/
inductive ToTextCode where
  | arms (arms : List TextArm)
  | std
  deriving DecidableEq, Repr

/-- `to_text.rs:42-55`: the arm for a variant of a restriction. -/
def restrictionArm : String × Option String → TextArm
  | (v, some t) => .known v t
  | (v, none) => .unknown v

/-- `to_text.rs:13-77`: `do_enum`, `do_union`, `do_restriction`, `do_std`. -/
def toTextCode : GText → ToTextCode
  | .std _ => .std
  | .union _ vs => .arms (vs.map fun v => .field v.1)
  | .restriction _ vs _ => .arms (vs.map restrictionArm)

/-! ### Meaning -/

/-- Values of a text enum or of a `std` type. -/
inductive GTVal where
  | unit (variant : String)
  | text (variant : String) (s : String)
  | field (variant : String) (v : TVal)
  | opaque (n : Nat)
  deriving DecidableEq, Repr

/-- The attempts of a union (`parse.rs:34-53`); `types` gives `parse` of the types of fields by their names. -/
def runAttempts (types : String → String → Res TErr TVal) (ident text : String) : List (String × String) → List TErr → Res TErr GTVal
  | [], errors => .err (.union ident errors)
  | (v, ty) :: l, errors =>
    match types ty text with
    | .ok r => .ok (.field v r)
    | .err e => runAttempts types ident text l (errors ++ [e])
    | .fault f => .fault f

/-- The last arm (`parse.rs:77-82`). -/
def TFall.run (text : String) : TFall → Res TErr GTVal
  | .unknown v => .ok (.text v text)
  | .noSuchVariant ident => .err (.noSuchVariant ident text)

/-- The `match` of a restriction (`parse.rs:89-92`). -/
def runKnown (text : String) (fall : TFall) : List (String × String) → Res TErr GTVal
  | [] => fall.run text
  | (t, v) :: l => if text = t then .ok (.unit v) else runKnown text fall l

/-- The normalization (`parse.rs:111-120`). -/
def runNormalize (text : String) : Option WhiteSpace → Res TErr String
  | none => .ok text
  | some ws => .ofExcept (SX.normalize text ws)

/-- The generated `parse`; `fromStr` is the type's `FromStr`.  `parse.rs:50-55,87-93,102-106`. -/
def ParseCode.run (types : String → String → Res TErr TVal) (fromStr : String → Option Nat) (c : ParseCode) (text : String) : Res TErr GTVal :=
  (runNormalize text c.normalize).bind fun text =>
  match c.body with
  | .union attempts ident => runAttempts types ident text attempts []
  | .restriction arms fall => runKnown text fall arms
  | .std =>
    match fromStr text with
    | some n => .ok (.opaque n)
    | none => .err .std

/-- The `match` of the generated `to_text` (`to_text.rs:33-36,62-65`); `types` gives `to_text` of the types of fields by their names, `tys` gives the names of the types of fields.  `none` if no arm applies or its
pattern has the wrong form. -/
def runTextArms (types : String → TVal → Option String) (tys : String → String) : List TextArm → GTVal → Option String
  | [], _ => none
  | .known v t :: l, x =>
    match x with
    | .unit v' => if v = v' then some t else runTextArms types tys l x
    | x => runTextArms types tys l x
  | .unknown v :: l, x =>
    match x with
    | .text v' s => if v = v' then some s else runTextArms types tys l x
    | x => runTextArms types tys l x
  | .field v :: l, x =>
    match x with
    | .field v' f => if v = v' then types (tys v) f else runTextArms types tys l x
    | x => runTextArms types tys l x

/-- The generated `to_text`; `toString` is the type's `ToString`.  `to_text.rs:32-36,60-64,72-74`. -/
def ToTextCode.run (types : String → TVal → Option String) (tys : String → String) (toString : Nat → String) (c : ToTextCode) (x : GTVal) : Option String :=
  match c with
  | .arms l => runTextArms types tys l x
  | .std =>
    match x with
    | .opaque n => some (toString n)
    | _ => none

end SX.Gen
