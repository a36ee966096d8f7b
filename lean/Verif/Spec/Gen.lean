import Verif.Model.GenRun
import Verif.Model.GenSer
import Verif.Model.GenText
import Verif.Spec.Open
import Verif.Spec.Macro

/-
Two visitors that cannot be told apart, and conditions for the generated code to be accepted by the compiler.
-/
namespace SX.Spec.Gen
open SX.Open SX.Spec.Open SX.Gen

/-- An answer to `element`, without the states of the visitor: the child is handed back, or it is read in a certain way and then the result
is a certain one. -/
def offered {σ τ : Type} : Offer σ τ → Option (Action σ (Except Fault (Ret VErr Unit)))
  | .back _ => none
  | .take a => some (a.map fun r => r.map Prod.snd)

/-- How calling a function ends, its value renamed. -/
def retMap {ε α β : Type} (f : α → β) : Ret ε α → Ret ε β
  | .ok a => .ok (f a)
  | .err e => .err e
  | .panic => .panic

/-- Two states of two visitors answer every call alike and are finalized alike; `f` translates the values that they construct. -/
structure SameAnswers {σ τ τ' α β : Type} (f : α → β) (r : Raw σ τ α) (r' : Raw σ τ' β) (t : τ) (t' : τ') : Prop where
  attr : ∀ n v, (r'.attr t' n v).map Prod.snd = (r.attr t n v).map Prod.snd
  characters : ∀ s pos, (r'.characters t' s pos).map Prod.snd = (r.characters t s pos).map Prod.snd
  element : ∀ info, (r'.element t' info).map offered = (r.element t info).map offered
  finalize : ∀ d, (r'.finalize t' (d.map (retMap f))).map (fun x => (x.2, r'.out x.1)) =
    (r.finalize t d).map (fun x => (x.2, (r.out x.1).map f))

/-- Two visitors cannot be told apart: after the same calls, in any number and order and however the reads of children go, they are both
intact and answer alike, or had the same fault. -/
def Alike {σ τ τ' α β : Type} (f : α → β) (r : Raw σ τ α) (r' : Raw σ τ' β) : Prop :=
  ∀ h : List (Call σ),
    (∃ e, run r h r.new = .error e ∧ run r' h r'.new = .error e) ∨
    ∃ t t', run r h r.new = .ok t ∧ run r' h r'.new = .ok t' ∧ SameAnswers f r r' t t'

/-- A field of a struct, as its type and attributes say. -/
def oField {σ τ α : Type} (types : String → TypeImpl σ τ α) (ty : String → String) (f : MField) : OField σ τ α where
  name := f.name.declared
  kind := match f.mode with
    | .element => .element (types (ty f.ident)).field
    | .attribute => .attribute (types (ty f.ident)).attr
    | .flatten => .flatten (types (ty f.ident)).raw
    | .text => .element (types (ty f.ident)).field
  default := if f.default then some (types (ty f.ident)).default else none

/-- A variant of an enum, as its type and attributes say. -/
def oVariant {σ τ α : Type} (types : String → TypeImpl σ τ α) (ty : String → String) (v : MVariant) : OVariant σ α where
  name := v.name.declared
  payload := if v.payload then some (types (ty v.ident)).field else none

/-- A field of a struct with its value, as its attributes say; `self` gives the values of fields. -/
def sField (self : String → SerVal) (f : MField) : SField where
  name := f.name.declared
  kind := match f.mode with
    | .attribute => .attribute (self f.ident).attr
    | .element => .element (self f.ident).field
    | .flatten => .flatten (self f.ident).ser
    | .text => .text

/-- A value of the given variant, as its attributes say. -/
def sVariant (v : MVariant) : Option SerVal → SVariant
  | none => .unit v.name.declared
  | some f => .payload v.name.declared f.field

/-- A value of a restriction whose variants have the given identifiers and texts (`none`: the unknown one). -/
def restrictionValue (idents : List String) (texts : List (Option String)) : TVal → GTVal
  | .known i => .unit (idents[i]?.getD "")
  | .unknown s => .text (idents[texts.idxOf none]?.getD "") s
  | _ => .opaque 0

/-- A value of a union whose variants have the given identifiers. -/
def unionValue (idents : List String) : TVal → GTVal
  | .variant i v => .field (idents[i]?.getD "") v
  | _ => .opaque 0

/-- A value of a type of mode `std`. -/
def stdValue : TVal → GTVal
  | .opaque n => .opaque n
  | _ => .opaque 0

/-- The text type that a description stands for; `types` gives the types of fields by their names, `ty` the types of variants' fields. -/
def textTy (types : String → TextTy) (ty : String → String) (fromStr : String → Option Nat) (toString : Nat → String) (ident : String)
    (vs : List DVariant) : TextDescribed → TextTy
  | .std ws => .std ws fromStr toString
  | .restriction ws texts => .restriction ident ws texts
  | .union ws _ => .union ident ws (vs.map fun v => types (ty v.ident))

/-- A value of the text type that a description stands for, written with the identifiers of the declaration. -/
def textValue (vs : List DVariant) : TextDescribed → TVal → GTVal
  | .std _ => stdValue
  | .restriction _ texts => restrictionValue (vs.map fun v => v.ident) texts
  | .union _ _ => unionValue (vs.map fun v => v.ident)

/-- The variants of a declaration. -/
def variantsOf (d : Decl) : List DVariant :=
  match d.data with
  | .enm vs => vs
  | _ => []

/-- The result of parsing, the value written differently. -/
def resMap {ε α β : Type} (f : α → β) : Res ε α → Res ε β
  | .ok a => .ok (f a)
  | .err e => .err e
  | .fault x => .fault x

/-! ### Code that the compiler accepts -/

/-- A field of the visitor is initialized by a value of its type; the memory given to a visitor is that of a field of the visitor's type. -/
def InitOk (decl : List (String × String)) : VisTy → InitExpr → Prop
  | .bool, .false => True
  | .visitor ty, .newVisitor ty' field => ty' = ty ∧ (field, ty) ∈ decl
  | _, _ => False

/-- `element` is defined within these limits: `child` is moved once, what is written to exists, flags are flags. -/
structure BodyOk (decl : List (String × String)) (defs : List (String × VisTy)) (body : List Stmt) : Prop where
  moved : ∃ pre s post, body = pre ++ s :: post ∧ (∀ t ∈ pre ++ post, ∃ n, t = .set n) ∧ ∀ n, s ≠ .set n
  flags : ∀ n, .set n ∈ body → (n, .bool) ∈ defs
  fields : ∀ n, .update n ∈ body ∨ .writeInit n ∈ body → ∃ ty, (n, ty) ∈ decl

/-- The same for `attribute` and `value`, which is dropped if it is not moved. -/
structure AttrBodyOk (decl : List (String × String)) (defs : List (String × VisTy)) (body : List AStmt) : Prop where
  moved : body.Pairwise fun s t => ¬ ((∃ n, s = .writeInit n) ∧ ∃ n, t = .writeInit n)
  flags : ∀ n, .set n ∈ body → (n, .bool) ∈ defs
  fields : ∀ n, .writeInit n ∈ body → ∃ ty, (n, ty) ∈ decl

/-- Visitors which are borrowed together are visitors, and distinct. -/
def FallOk (defs : List (String × VisTy)) : Fall → Prop
  | .back => True
  | .delegate ns => ns.Nodup ∧ ∀ n ∈ ns, ∃ ty, (n, .visitor ty) ∈ defs

/-- There is no field `_text_buf` in the visitor. -/
def CharsOk (defs : List (String × VisTy)) : Chars → Prop
  | .textBuf => False
  | .delegate ns => FallOk defs (.delegate ns)

/-- The expression has the given type, and does not index beyond the end of a constant. -/
def ValOk (c : StructCode) (ty : String) : ValExpr → Prop
  | .default t => t = ty
  | .missingElement t p => t = ty ∧ p < c.elements.length
  | .missingAttribute t p => t = ty ∧ p < c.attributes.length

/-- A statement of `finalize` is well typed. -/
def FinOk (decl : List (String × String)) (c : StructCode) : FinStmt → Prop
  | .writeIfNot flag field value => (flag, .bool) ∈ c.defs ∧ ∃ ty, (field, ty) ∈ decl ∧ ValOk c ty value
  | .finalize ty visitor default => (visitor, .visitor ty) ∈ c.defs ∧ ∀ t ∈ default, t = ty

/-- The visitors which are moved out of `self` by `finalize`. -/
def movedVisitors (l : List FinStmt) : List String :=
  l.filterMap fun s => match s with
    | .finalize _ v _ => some v
    | _ => none

/-- The rules of Rust which code made of such fragments can break: distinct names of fields, all fields initialized once and by values of
their types, names resolved to things of the right type, values moved once, distinct parts of `self` borrowed; also no index beyond the end. -/
structure Compiles (decl : List (String × String)) (c : StructCode) : Prop where
  distinct : ("out" :: "_phantom" :: c.defs.map Prod.fst).Nodup
  inits : Rowwise (fun d i => i.1 = d.1 ∧ InitOk decl d.2 i.2) c.defs c.inits
  elementArms : ∀ a ∈ c.elementArms, BodyOk decl c.defs a.body ∧ (∀ n ∈ a.guard, (n, .bool) ∈ c.defs)
  elementFall : FallOk c.defs c.elementFall
  attributeArms : ∀ a ∈ c.attributeArms, AttrBodyOk decl c.defs a.body ∧ (∀ n ∈ a.guard, (n, .bool) ∈ c.defs)
  attributeFall : FallOk c.defs c.attributeFall
  characters : ∀ x ∈ c.characters, CharsOk c.defs x
  finalize : ∀ s ∈ c.finalize, FinOk decl c s
  moved : (movedVisitors c.finalize).Nodup

/-- The fields of a struct with their types. -/
def declOf (ty : String → String) (s : MStruct) : List (String × String) := s.fields.map fun f => (f.ident, ty f.ident)

/-- A `match` on a value of an enum covers the variants of the declaration, and its patterns have the form of the variants. -/
structure Exhaustive (vs : List DVariant) (arms : List (String × Bool)) : Prop where
  covered : ∀ v ∈ vs, ∃ payload, (v.ident, payload) ∈ arms
  form : ∀ v ∈ vs, ∀ payload, (v.ident, payload) ∈ arms → v.fields = if payload then .unnamed 1 else .unit
  declared : ∀ a ∈ arms, ∃ v ∈ vs, v.ident = a.1

/-- An identifier: a letter and then letters, digits and underscores; `start` and `more` are the sets of Unicode. -/
def Word (start more : Char → Bool) (s : String) : Prop :=
  ∃ c l, s.toList = c :: l ∧ start c = true ∧ ∀ x ∈ l, more x = true

/-- An identifier in source code, which may be raw: `r#type`. -/
def Identifier (start more : Char → Bool) (s : String) : Prop := Word start more s ∨ ∃ t, s = "r#" ++ t ∧ Word start more t

/-- What matters of these sets: `_` and the letters of the suffixes may follow, `#` may not. -/
def Sensible (more : Char → Bool) : Prop := more '#' = false ∧ (∀ c ∈ "_presentvioV".toList, more c = true)

end SX.Spec.Gen
