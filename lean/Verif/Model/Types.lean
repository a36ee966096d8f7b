import Verif.Model.Text
import Verif.Model.Names

/-
Type declarations given to the derive macros, and their values.  A set of (possibly mutually recursive)
types is an environment that numbers the structs and enums.
-/
namespace SX

/-- The type of an element's content: a text type (`ParseText`/`ToText`), or a struct or enum with
derived `Deserialize`/`Serialize`, by number.  Types with hand-written implementations are not covered
here (see `Model/Reader.lean` and `Model/Writer.lean` for arbitrary implementations).  The implementations of `Deserialize` are `de/mod.rs:741-757,1067-1072`. -/
inductive Ty where
  | text (t : TextTy)
  | strct (i : Nat)
  | enm (i : Nat)

/-- `de/mod.rs:958-1003`, `ser/mod.rs:524-570`: the three field shapes `T`, `Option<T>`, `Vec<T>`. -/
inductive Card where
  | one
  | opt
  | many
  deriving DecidableEq, Repr

/-- The type of an element field or of an enum variant's payload: `T`, `Option<T>` or `Vec<T>`.  The implementations are `de/mod.rs:958-1000`, `ser/mod.rs:532-571`. -/
structure Slot where
  card : Card
  ty : Ty

/-- Values.  `enm i p`: variant number `i` with its payload.  What the macros generate values for: `common.rs:416-423,601-614`. -/
inductive Val where
  | text (v : TVal)
  | strct (fields : List Val)
  | enm (i : Nat) (payload : Option Val)
  | opt (v : Option Val)
  | vec (l : List Val)
  deriving Repr

/-- `common.rs:515-522`: `ElementFieldMode`, with the field's type.  A flattened field's type is a derived
enum: only those implement `RawDeserialize` (`deserialize.rs:464-466`). -/
inductive Kind where
  | element (s : Slot)
  | attribute (optional : Bool) (t : TextTy)
  | flatten (e : Nat)
  | text (t : TextTy)

/-- `common.rs:525-531`: `ElementField`.  `default`: the value of `Default::default()` if the field is marked
`default`. -/
structure Field where
  name : DName
  kind : Kind
  default : Option Val

/-- `common.rs:426-433`: `ElementStruct` (`attr` is `root` and `namespaces`, `common.rs:248-252`;
`namespaces` are the entries of the `BTreeMap`, in its order). -/
structure StructDef where
  root : DName
  namespaces : List (String × String)
  fields : List Field

/-- `common.rs:610-614`: `ElementVariant`; skipped ones (`common.rs:634-637`) are kept here and marked. -/
structure Variant where
  name : DName
  slot : Option Slot
  skip : Bool

/-- `common.rs:601-608`: `ElementEnum`; variants in declaration order. -/
structure EnumDef where
  ident : String
  root : DName
  namespaces : List (String × String)
  variants : List Variant

/-- All derived types of a program.  Each is described as in `common.rs:416-423,601-608`. -/
structure Env where
  strct : Nat → StructDef
  enm : Nat → EnumDef

end SX
