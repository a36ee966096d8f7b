import Verif.Model.DeriveSer

/-
Derived serialization for fields of arbitrary types: `static-xml-derive/src/serialize.rs` where the implementations of
`Serialize`, `SerializeField` and `SerializeAttr` for the types of fields are written by hand.  They are arbitrary programs
(`AttrProg`, `Prog`) on the builder or writer lent to them.

Not covered: panics of these implementations (see `Model/Unwind.lean`).
-/
namespace SX.Open

/-- The handles of a callee (its own, above the writer lent to it) and the same above those of its caller.  Not in the code: Rust's borrowing of `writer` in calls such as `serialize.rs:59,69,125`. -/
inductive Lent (o : Bool) (hs : List Handle) : List Handle → List Handle → Type where
  | base : Lent o hs [.writer false] (.writer o :: hs)
  | up {l m : List Handle} (h : Handle) (b : Lent o hs l m) : Lent o hs (h :: l) (h :: m)

/-- `f(writer)` followed by `k` with its result, where `f` does `p` with the `&mut ElementWriter` it gets.  Not in the
code: Rust's function call.  Such calls are in `serialize.rs:59,69,125` and `ser/mod.rs:541,555,567`. -/
def lend {o : Bool} {hs : List Handle} (k : WCont o hs) : {l m : List Handle} → Prog l → Lent o hs l m → Prog m
  | _, _, .ret r, .base => k r
  | _, _, .ret _, .up _ b => nomatch b
  | _, _, .element name p, .base => .element name (lend k p (.up _ .base))
  | _, _, .element name p, .up _ b => .element name (lend k p (.up _ (.up _ b)))
  | _, _, .text s p, .base => .text s fun r => lend k (p r) .base
  | _, _, .text s p, .up _ b => .text s fun r => lend k (p r) (.up _ b)
  | _, _, .namespace q u p, .up _ b => .namespace q u (lend k p (.up _ b))
  | _, _, .attribute n v p, .up _ b => .attribute n v fun r => lend k (p r) (.up _ b)
  | _, _, .start ok fail, .up _ b => .start (lend k ok (.up _ b)) fun e => lend k (fail e) b
  | _, _, .finish p, .up _ b => .finish fun r => lend k (p r) b
  | _, _, .dropBuilder p, .up _ b => .dropBuilder (lend k p b)
  | _, _, .dropWriter p, .up _ b => .dropWriter (lend k p b)
  | _, _, .forgetBuilder p, .up _ b => .forgetBuilder (lend k p b)
  | _, _, .forgetWriter p, .up _ b => .forgetWriter (lend k p b)

/-- `f(writer)?; g`.  `serialize.rs:59,69`. -/
def andThen (p q : Prog [.writer false]) : Prog [.writer false] :=
  lend (fun r =>
    match r with
    | .error e => .ret (.error e)
    | .ok () => q) p .base

/-- What an implementation of `Serialize` (`ser/mod.rs:494-501`) does for a value. -/
structure Ser where
  attrs : AttrProg
  children : Prog [.writer false]

/-- `ser/mod.rs:532-545`: `SerializeField::write` for `T: Serialize`. -/
def fieldOne (v : Ser) (name : EName) : Prog [.writer false] :=
  writeElem name v.attrs (fun k => lend k v.children .base) .ret

/-- `ser/mod.rs:547-558`: `SerializeField::write` for `Option<T>`. -/
def fieldOpt (v : Option Ser) (name : EName) : Prog [.writer false] :=
  match v with
  | some v => andThen (fieldOne v name) (.ret (.ok ()))
  | none => .ret (.ok ())

/-- `ser/mod.rs:560-571`: `SerializeField::write` for `Vec<T>`. -/
def fieldVec : List Ser → EName → Prog [.writer false]
  | [], _ => .ret (.ok ())
  | v :: l, name => andThen (fieldOne v name) (fieldVec l name)

/-- `ser/mod.rs:641-651`: `SerializeAttr::write` for `T: ToText`; `t`: what its `to_text` returns. -/
def attrOne (t : Except SErr String) (name : EName) : AttrProg :=
  match t with
  | .error e => .ret (.error e)
  | .ok s => .attribute name s fun r => .ret r

/-- `ser/mod.rs:653-662`: `SerializeAttr::write` for `Option<T>`. -/
def attrOpt (t : Option (Except SErr String)) (name : EName) : AttrProg :=
  match t with
  | some t => (attrOne t name).andThen (.ret (.ok ()))
  | none => .ret (.ok ())

/-- `ser/mod.rs:623-627`: `Serialize` for `T: ToText`; `t`: what its `to_text` returns. -/
def textSer (t : Except SErr String) : Ser where
  attrs := .ret (.ok ())
  children :=
    match t with
    | .error e => .ret (.error e)
    | .ok s => .text s .ret

/-- The mode of a field, with what the implementation for its type does for its value: `SerializeAttr::write` or
`SerializeField::write`, given the field's name, or `Serialize`.  `text` is written nowhere (`serialize.rs:26-30,51-55`). -/
inductive SKind where
  | attribute (w : EName → AttrProg)
  | element (w : EName → Prog [.writer false])
  | flatten (v : Ser)
  | text

/-- A field of a struct (`common.rs:525-531`) with its value. -/
structure SField where
  name : DName
  kind : SKind

/-- `serialize.rs:26-36`: the attribute fields, in order. -/
def attrFields : List SField → AttrProg
  | [] => .ret (.ok ())
  | f :: fs =>
    match f.kind with
    | .attribute w => (w f.name.expanded).andThen (attrFields fs)
    | _ => attrFields fs

/-- `serialize.rs:37-47`: then the flattened fields. -/
def flattenAttrs : List SField → AttrProg
  | [] => .ret (.ok ())
  | f :: fs =>
    match f.kind with
    | .flatten v => v.attrs.andThen (flattenAttrs fs)
    | _ => flattenAttrs fs

/-- `serialize.rs:51-61`: the element fields, in order. -/
def elemFields : List SField → Prog [.writer false] → Prog [.writer false]
  | [], k => k
  | f :: fs, k =>
    match f.kind with
    | .element w => andThen (w f.name.expanded) (elemFields fs k)
    | _ => elemFields fs k

/-- `serialize.rs:62-72`: then the flattened fields. -/
def flattens : List SField → Prog [.writer false]
  | [] => .ret (.ok ())
  | f :: fs =>
    match f.kind with
    | .flatten v => andThen v.children (flattens fs)
    | _ => flattens fs

/-- `serialize.rs:87-109`: the generated `Serialize` of a struct. -/
def structSer (namespaces : List (String × String)) (fields : List SField) : Ser where
  attrs := (writeNamespaces namespaces).andThen ((attrFields fields).andThen (flattenAttrs fields))
  children := elemFields fields (flattens fields)

/-- The variant of a value of an enum (`common.rs:610-614`): its name, and what its payload's `SerializeField::write`
does; or a skipped one. -/
inductive SVariant where
  | unit (name : DName)
  | payload (name : DName) (w : EName → Prog [.writer false])
  | skipped

/-- `serialize.rs:111-152`: the generated `Serialize` of an enum. -/
def enumSer (namespaces : List (String × String)) (v : SVariant) : Ser where
  attrs := writeNamespaces namespaces
  children :=
    match v with
    | .unit name => andThen (writeUnit name.expanded .ret) (.ret (.ok ()))
    | .payload name w => andThen (w name.expanded) (.ret (.ok ()))
    | .skipped => .ret (.ok ())

end SX.Open
