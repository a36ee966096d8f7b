import Verif.Model.GenSer
import Verif.Model.GenText

/-
The entry points of the derive macros (`static-xml-derive/src/lib.rs:18-53`) with the collected errors (`common.rs:13-45`).
-/
namespace SX.Gen

/-- `common.rs:14`: `Errors`, a `RefCell<Option<Vec<syn::Error>>>`.  Borrows end with each call, so the `RefCell` is left out. -/
abbrev Errors : Type := Option (List MErr)

/-- `common.rs:17-19`: `Errors::new`. -/
def Errors.new : Errors := some []

/-- `common.rs:21-23`: `Errors::push`; `none`: the `unwrap` panics. -/
def Errors.push (e : MErr) : Errors → Option Errors
  | some l => some (some (l ++ [e]))
  | none => none

/-- `common.rs:25-36`: `take_compile_errors`, which leaves `None`; `none`: the `unwrap` panics. -/
def Errors.takeCompileErrors : Errors → Option (List MErr × Errors)
  | some l => some (l, none)
  | none => none

/-- `common.rs:39-45`: does `drop` panic? -/
def Errors.dropPanics (panicking : Bool) (e : Errors) : Bool := e.isSome && !panicking

/-- What a macro does with the errors (`fn(&Errors, DeriveInput) -> Result<TokenStream, ()>`): it reports some, and returns or panics.
`none` is `Err(())`.  The type is that of the parameter `f` in `lib.rs:20`; the functions are `deserialize.rs:472-484`, `serialize.rs:155-169`, `parse.rs:123-148`, `to_text.rs:79-104`. -/
inductive MacroRun (Code : Type) where
  | ret (out : Option Code)
  | push (e : MErr) (k : MacroRun Code)
  | panic

/-- The result, `none` for a panic, and what the errors are then.  The call in `lib.rs:24`, with `Errors::push` of `common.rs:21-23`. -/
def MacroRun.run {Code : Type} : MacroRun Code → Errors → Option (Option Code) × Errors
  | .ret out, errors => (some out, errors)
  | .push e k, errors =>
    match errors.push e with
    | some errors => k.run errors
    | none => (none, errors)
  | .panic, errors => (none, errors)

/-- What a macro expands to: `const _: () = { #errors #out };`.  `lib.rs:26-31`. -/
structure Expansion (Code : Type) where
  errors : List MErr
  out : Option Code

/-- How a call of a macro ends.  A panic is reported by the compiler; a panic while panicking aborts the compiler.  `lib.rs:18-32`; the check that can panic while panicking is `common.rs:39-45`. -/
inductive End (α : Type) where
  | done (a : α)
  | panic
  | abort

/-- Leaving the scope of `errors`.  `common.rs:39-45`, at the end of `lib.rs:18-32`. -/
def leave {α : Type} (errors : Errors) : End α → End α
  | .done a => if errors.dropPanics false then .panic else .done a
  | .panic => if errors.dropPanics true then .abort else .panic
  | .abort => .abort

/-- `lib.rs:18-32` of the derive crate: `derive`.  `input` is `none` if it cannot be parsed; then `parse_macro_input!` returns the
error of `syn` (not represented). -/
def derive {Code : Type} (input : Option Decl) (f : Decl → MacroRun Code) : End (Expansion Code) :=
  match input with
  | none => leave .new (.done { errors := [], out := none })
  | some d =>
    match (f d).run .new with
    | (none, errors) => leave errors .panic
    | (some out, errors) =>
      match errors.takeCompileErrors with
      | none => leave errors .panic
      | some (l, errors) => leave errors (.done { errors := l, out := out })

/-- Reports errors, in order.  Several calls of `Errors::push` (`common.rs:21-23`). -/
def pushAll {Code : Type} : List MErr → MacroRun Code → MacroRun Code
  | [], k => k
  | e :: l, k => .push e (pushAll l k)

/-- What `derive(Deserialize)` and `derive(Serialize)` emit.  `deserialize.rs:474-475`, `serialize.rs:157-160`. -/
inductive ImplCode (S E : Type) where
  | strct (c : S)
  | enm (c : E)

/-- `deserialize.rs:470-484`: `derive`; `ty` gives the types of fields and variants.  The errors are reported while the description is made, before
code is. -/
def deriveDeserialize (ty : String → String) (d : Decl) : MacroRun (ImplCode StructCode EnumCode) :=
  match describe d with
  | .error _ => .panic
  | .ok (r, errs) => pushAll errs (
    match r with
    | none => .ret none
    | some (.strct s) =>
      match structCode (GStruct.ofDescribed d.ident ty s) with
      | .error _ => .panic
      | .ok c => .ret (some (.strct c))
    | some (.enm e) => .ret (some (.enm (enumCode (GEnum.ofDescribed d.ident ty e)))))

/-- `serialize.rs:155-169`: `derive`. -/
def deriveSerialize (ty : String → String) (d : Decl) : MacroRun (ImplCode SerCode SerEnumCode) :=
  match describe d with
  | .error _ => .panic
  | .ok (r, errs) => pushAll errs (
    match r with
    | none => .ret none
    | some (.strct s) => .ret (some (.strct (serStructCode s.attr (GStruct.ofDescribed d.ident ty s))))
    | some (.enm e) => .ret (some (.enm (serEnumCode e.attr (GEnum.ofDescribed d.ident ty e)))))

/-- The variants of an enum; other types have none.  `enum_.variants`, `common.rs:150-151,212-213,620-621`. -/
def declVariants (d : Decl) : List DVariant :=
  match d.data with
  | .enm vs => vs
  | _ => []

/-- `parse.rs:122-147`: `derive`, with `TextEnum::new` (`common.rs:128-146`), which is only called with mode `restriction` or `union`. -/
def deriveParseText (ty : String → String) (d : Decl) : MacroRun ParseCode :=
  pushAll (describeText d).2 (.ret ((describeText d).1.map fun t => parseCode d.ident (GText.ofDescribed ty (declVariants d) t)))

/-- `to_text.rs:79-104`: `derive`. -/
def deriveToText (ty : String → String) (d : Decl) : MacroRun ToTextCode :=
  pushAll (describeText d).2 (.ret ((describeText d).1.map fun t => toTextCode (GText.ofDescribed ty (declVariants d) t)))

end SX.Gen
