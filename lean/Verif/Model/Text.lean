import Verif.Model.Normalize

/-
Model of the text types: `ParseText` (`static-xml/src/de/mod.rs:1022-1065`,
`static-xml-derive/src/parse.rs`) and `ToText` (`static-xml/src/ser/mod.rs:582-620`,
`static-xml-derive/src/to_text.rs`).

`f32`/`f64` and `mode = "std"` types go through std's `FromStr`/`ToString`, which are not in the
repository: they are arbitrary functions here.  Their values are represented by numbers (any
countable type).
-/
namespace SX

/-- `de/mod.rs:1030,1041`: the set given to `trim_matches`. -/
def trimSet (c : Char) : Bool := ['\x09', '\x0A', '\x0D', '\x20'].contains c

/-- `str::trim_matches` (std) with a character set: drop the longest matching prefix and suffix. -/
def trimMatches (p : Char → Bool) (s : List Char) : List Char :=
  ((s.dropWhile p).reverse.dropWhile p).reverse

/-- The integer types of `de/mod.rs:1048-1057`. -/
structure IntTy where
  signed : Bool
  bits : Nat
  deriving DecidableEq, Repr

/-- Smallest value of the type (std). -/
def IntTy.min (t : IntTy) : Int := if t.signed then -(2 ^ (t.bits - 1) : Nat) else 0
/-- Largest value of the type (std). -/
def IntTy.max (t : IntTy) : Int := if t.signed then (2 ^ (t.bits - 1) : Nat) - 1 else (2 ^ t.bits : Nat) - 1

/-- `checked_mul`/`checked_add`/`checked_sub` (std): `None` when the exact result does not fit. -/
def IntTy.checked (t : IntTy) (x : Int) : Option Int := if t.min ≤ x ∧ x ≤ t.max then some x else none

/-- `char::to_digit(10)` (std). -/
def toDigit (c : Char) : Option Nat :=
  if '0'.toNat ≤ c.toNat ∧ c.toNat ≤ '9'.toNat then some (c.toNat - '0'.toNat) else none

/-- The digit loop of std's integer `from_str_radix` (radix 10): `neg` subtracts the digits, otherwise
they are added; every step is checked. -/
def digitLoop (t : IntTy) (neg : Bool) : List Char → Int → Option Int
  | [], acc => some acc
  | c :: cs, acc =>
    match toDigit c with
    | none => none
    | some d =>
      match t.checked (acc * 10) with
      | none => none
      | some m =>
        match t.checked (if neg then m - d else m + d) with
        | none => none
        | some a => digitLoop t neg cs a

/-- `<$t as FromStr>::from_str` (std) for integer types, as used by `de/mod.rs:1042`. -/
def intFromStr (t : IntTy) (src : List Char) : Option Int :=
  match src with
  | [] => none
  | ['+'] => none
  | ['-'] => none
  | '+' :: ds => digitLoop t false ds 0
  | '-' :: ds => if t.signed then digitLoop t true ds 0 else none
  | ds => digitLoop t false ds 0

/-- Decimal digits of a natural number (std `Display`, without its two-digits-at-a-time table). -/
def natDigits (n : Nat) : List Char :=
  if n < 10 then [Char.ofNat (48 + n)] else natDigits (n / 10) ++ [Char.ofNat (48 + n % 10)]
termination_by n

/-- `ToString` of an integer (std), as used by `ser/mod.rs:586-593`. -/
def intToString (n : Int) : String :=
  String.ofList (if n < 0 then '-' :: natDigits n.natAbs else natDigits n.natAbs)

/-- A text type.
* `restriction`: `parse.rs:60-96`; `variants` lists the variants in declaration order, `some text`
  for a known one and `none` for the `unknown` one (`common.rs:148-208`).
* `union`: `parse.rs:26-58`, variant types in declaration order.
* `std`: `parse.rs:98-109`; `fromStr`/`toString` are the type's std impls.
* `float`: `de/mod.rs:1058-1059`. -/
inductive TextTy where
  | bool
  | int (t : IntTy)
  | float (fromStr : String → Option Nat) (toString : Nat → String)
  | string
  | std (ws : WhiteSpace) (fromStr : String → Option Nat) (toString : Nat → String)
  | restriction (name : String) (ws : WhiteSpace) (variants : List (Option String))
  | union (name : String) (ws : WhiteSpace) (variants : List TextTy)

/-- Values of text types.  `known i`: variant number `i` of a restriction enum; `unknown s`: its
unknown variant; `variant i v`: variant number `i` of a union; `opaque n`: a std value. -/
inductive TVal where
  | bool (b : Bool)
  | int (n : Int)
  | str (s : String)
  | opaque (n : Nat)
  | known (i : Nat)
  | unknown (s : String)
  | variant (i : Nat) (v : TVal)
  deriving DecidableEq, Repr

/-- Errors of `ParseText::parse`.  `de/mod.rs:114-128,1033`. -/
inductive TErr where
  | invalidBool (text : String)
  | std
  | noSuchVariant (enum_ : String) (text : String)
  | union (name : String) (errors : List TErr)
  deriving Repr

/-- The position and text of the first known variant whose text is `s` (Rust `match` arms,
`parse.rs:66-76,90-93`). -/
def matchKnown (s : String) : List (Option String) → Nat → Option Nat
  | [], _ => none
  | some t :: vs, i => if s = t then some i else matchKnown s vs (i + 1)
  | none :: vs, i => matchKnown s vs (i + 1)

/-- `parse.rs:60-96`: the generated `parse` of a restriction enum; the normalization is `parse.rs:111-120`. -/
def parseRestriction (name : String) (ws : WhiteSpace) (variants : List (Option String)) (text : String) :
    Res TErr TVal := do
  let text ← Res.ofExcept (normalize text ws)
  match matchKnown text variants 0 with
  | some i => .ok (.known i)
  | none => if variants.contains none then .ok (.unknown text) else .err (.noSuchVariant name text)

/-- `de/mod.rs:1022-1035`: `<bool as ParseText>::parse`. -/
def parseBool (text : String) : Res TErr TVal :=
  match String.ofList (trimMatches trimSet text.toList) with
  | "true" => .ok (.bool true)
  | "1" => .ok (.bool true)
  | "false" => .ok (.bool false)
  | "0" => .ok (.bool false)
  | _ => .err (.invalidBool text)

/-- `de/mod.rs:1037-1046`: `text_for_num!` for an integer type. -/
def parseInt (t : IntTy) (text : String) : Res TErr TVal :=
  match intFromStr t (trimMatches trimSet text.toList) with
  | some n => .ok (.int n)
  | none => .err .std

mutual
/-- `ParseText::parse` for every text type.  `de/mod.rs:769-774`; the implementations are `de/mod.rs:1022-1065` and those emitted by `parse.rs:16-121`. -/
def TextTy.parse : TextTy → String → Res TErr TVal
  | .bool, text => parseBool text
  | .int t, text => parseInt t text
  | .float f _, text =>
    match f (String.ofList (trimMatches trimSet text.toList)) with
    | some n => .ok (.opaque n)
    | none => .err .std
  | .string, text => .ok (.str text)
  | .std ws f _, text =>
    (Res.ofExcept (normalize text ws)).bind fun text =>
    match f text with
    | some n => .ok (.opaque n)
    | none => .err .std
  | .restriction name ws vs, text => parseRestriction name ws vs text
  | .union name ws vs, text =>
    (Res.ofExcept (normalize text ws)).bind fun text => TextTy.parseVariants vs name text 0 []
/-- `parse.rs:34-46,51-53`: the attempts of a union, in order, collecting errors. -/
def TextTy.parseVariants : List TextTy → String → String → Nat → List TErr → Res TErr TVal
  | [], name, _, _, errors => .err (.union name errors)
  | t :: ts, name, text, i, errors =>
    match t.parse text with
    | .ok r => .ok (.variant i r)
    | .err e => TextTy.parseVariants ts name text (i + 1) (errors ++ [e])
    | .fault f => .fault f
end

mutual
/-- `ToText::to_text` (`ser/mod.rs:585-620`, `to_text.rs:13-77`); `none` when the value is not of the type (ruled out by Rust's
typing). -/
def TextTy.toText : TextTy → TVal → Option String
  | .bool, .bool b => some (if b then "true" else "false")
  | .int _, .int n => some (intToString n)
  | .float _ g, .opaque n => some (g n)
  | .string, .str s => some s
  | .std _ _ g, .opaque n => some (g n)
  | .restriction _ _ vs, .known i =>
    match vs[i]? with
    | some (some t) => some t
    | _ => none
  | .restriction _ _ vs, .unknown s => if vs.contains none then some s else none
  | .union _ _ vs, .variant i v => TextTy.toTextAt vs i v
  | _, _ => none
/-- `to_text.rs:20-39`: the match arm of union variant `i`. -/
def TextTy.toTextAt : List TextTy → Nat → TVal → Option String
  | [], _, _ => none
  | t :: _, 0, v => t.toText v
  | _ :: ts, i + 1, v => TextTy.toTextAt ts i v
end

end SX
