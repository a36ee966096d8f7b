import Verif.Model.Gen
import Verif.Model.OpenSer

/-
What `derive(Serialize)` emits (`static-xml-derive/src/serialize.rs`), as syntax, and what it means.  Only the parts that differ
between types are represented.
-/
namespace SX.Gen
open SX.Open

/-- Statements of `write_attributes`.  `serialize.rs:17-19,32-35,42-45`. -/
inductive AttrStmt where
  /-- `builder.namespace(#prefix, #ns);` -/
  | namespace (pfx url : String)
  /-- `SerializeAttr::write(&self.#field, &mut builder, #name)?;` -/
  | write (field : String) (name : EName)
  /-- `Serialize::write_attributes(&self.#field, builder)?;` -/
  | flatten (field : String)
  deriving DecidableEq, Repr

/-- Statements of `write_children`.  `serialize.rs:57-60,67-70`. -/
inductive ChildStmt where
  /-- `SerializeField::write(&self.#field, writer, #name)?;` -/
  | write (field : String) (name : EName)
  /-- `Serialize::write_children(&self.#field, writer)?;` -/
  | flatten (field : String)
  deriving DecidableEq, Repr

/-- What `do_struct` emits.  `serialize.rs:93-107`. -/
structure SerCode where
  attributes : List AttrStmt
  children : List ChildStmt
  /-- The value of `SerializeRoot::root`. -/
  root : EName
  deriving DecidableEq, Repr

/-- `serialize.rs:12-22`: `write_namespaces`. -/
def namespaceStmts (namespaces : SMap String) : List AttrStmt := namespaces.map fun x => .namespace x.1 x.2

/-- `serialize.rs:24-48`: `write_struct_attributes`. -/
def attributeStmts (s : GStruct) : List AttrStmt :=
  (s.fields.filterMap fun f =>
    match f.mode with
    | .attribute _ => some (.write f.ident f.name.expanded)
    | _ => none) ++
  s.fields.filterMap fun f => if f.mode = .flatten then some (.flatten f.ident) else none

/-- `serialize.rs:50-73`: `write_struct_elements`. -/
def elementStmts (s : GStruct) : List ChildStmt :=
  (s.fields.filterMap fun f =>
    match f.mode with
    | .element _ => some (.write f.ident f.name.expanded)
    | _ => none) ++
  s.fields.filterMap fun f => if f.mode = .flatten then some (.flatten f.ident) else none

/-- `serialize.rs:87-109`: `do_struct`, with `impl_root` (`serialize.rs:75-85`). -/
def serStructCode (attr : MAttr) (s : GStruct) : SerCode where
  attributes := namespaceStmts attr.namespaces ++ attributeStmts s
  children := elementStmts s
  root := attr.name.declared.expanded

/-- An arm of the `match` on an enum (`serialize.rs:113-130`): `Self::#variant => writer.element(#name).start()?.finish()?` or
`Self::#variant(ref f) => SerializeField::write(f, writer, #name)?`. -/
structure SerArm where
  variant : String
  payload : Bool
  name : EName
  deriving DecidableEq, Repr

/-- What `do_enum` emits.  `serialize.rs:137-152`. -/
structure SerEnumCode where
  attributes : List AttrStmt
  arms : List SerArm
  /-- Is there a last arm `_ => {}`? -/
  wildcard : Bool
  root : EName
  deriving DecidableEq, Repr

/-- `serialize.rs:111-152`: `do_enum`. -/
def serEnumCode (attr : MAttr) (e : GEnum) : SerEnumCode where
  attributes := namespaceStmts attr.namespaces
  arms := e.variants.map fun v => { variant := v.ident, payload := v.ty.isSome, name := v.name.expanded }
  wildcard := e.hasSkipped
  root := attr.name.declared.expanded

/-! ### Meaning -/

/-- What the implementations of `SerializeAttr`, `SerializeField` and `Serialize` do for a value.  Those that a type does not have are never
used by code that compiles.  `ser/mod.rs:494-501,524-530,631-638`. -/
structure SerVal where
  attr : EName → AttrProg
  field : EName → Prog [.writer false]
  ser : Ser

/-- The method `write_attributes` (`serialize.rs:95-99,139-142`) of a value with the given fields. -/
def runAttributes (self : String → SerVal) : List AttrStmt → AttrProg
  | [] => .ret (.ok ())
  | .namespace p u :: l => .namespace p u (runAttributes self l)
  | .write f n :: l => ((self f).attr n).andThen (runAttributes self l)
  | .flatten f :: l => (self f).ser.attrs.andThen (runAttributes self l)

/-- The method `write_children` (`serialize.rs:101-104`) of a value with the given fields. -/
def runChildren (self : String → SerVal) : List ChildStmt → Prog [.writer false]
  | [] => .ret (.ok ())
  | .write f n :: l => andThen ((self f).field n) (runChildren self l)
  | .flatten f :: l => andThen (self f).ser.children (runChildren self l)

/-- The generated `Serialize` of a struct.  `serialize.rs:94-105`. -/
def SerCode.ser (c : SerCode) (self : String → SerVal) : Ser where
  attrs := runAttributes self c.attributes
  children := runChildren self c.children

/-- The `match` of `write_children` (`serialize.rs:144-149`) for a value of the given variant and payload; `none` if no arm applies
(then the code does not compile). -/
def runArms (wildcard : Bool) (variant : String) (payload : Option SerVal) : List SerArm → Option (Prog [.writer false])
  | [] => if wildcard then some (.ret (.ok ())) else none
  | a :: l =>
    if a.variant = variant then
      match a.payload, payload with
      | false, none => some (andThen (writeUnit a.name .ret) (.ret (.ok ())))
      | true, some f => some (andThen (f.field a.name) (.ret (.ok ())))
      | _, _ => none
    else runArms wildcard variant payload l

/-- The generated `Serialize` of an enum, for a value of the given variant and payload.  (`self` is for `runAttributes`; the code for enums does
not mention fields.)  `serialize.rs:138-150`. -/
def SerEnumCode.ser (c : SerEnumCode) (self : String → SerVal) (variant : String) (payload : Option SerVal) : Option Ser :=
  (runArms c.wildcard variant payload c.arms).map fun p => { attrs := runAttributes self c.attributes, children := p }

end SX.Gen
