import Verif.Model.Types
import Verif.Model.Writer

/-
Derived serialization: `static-xml-derive/src/serialize.rs` and the field implementations in
`static-xml/src/ser/mod.rs:524-662`.  The generated code is modelled as the programs (`AttrProg`, `Prog`) that it
performs on builders and writers.  `?` hands the error to the continuation.

Values that do not have the declared type, which Rust rules out, make the code do nothing here.
-/
namespace SX

/-- `write_attributes(…, &mut builder)?` for a builder of one's own; then `k`.  `ser/mod.rs:538-541`. -/
def AttrProg.embed {hs : List Handle} : AttrProg → (Except SErr Unit → Prog (.builder :: hs)) → Prog (.builder :: hs)
  | .ret r, k => k r
  | .namespace p u a, k => .namespace p u (a.embed k)
  | .attribute n v a, k => .attribute n v fun r => (a r).embed k

/-- `a?; b`.  The sequence of statements in `serialize.rs:96-98`. -/
def AttrProg.andThen : AttrProg → AttrProg → AttrProg
  | .ret (.ok ()), b => b
  | .ret (.error e), _ => .ret (.error e)
  | .namespace p u a, b => .namespace p u (a.andThen b)
  | .attribute n v a, b => .attribute n v fun r => (a r).andThen b

/-- `serialize.rs:12-22`: `write_namespaces`. -/
def writeNamespaces : List (String × String) → AttrProg
  | [] => .ret (.ok ())
  | (p, u) :: l => .namespace p u (writeNamespaces l)

/-- `ser/mod.rs:641-662`: `SerializeAttr::write` for `T` and `Option<T>`. -/
def writeAttr (optional : Bool) (t : TextTy) (name : EName) (v : Val) : AttrProg :=
  let write (tv : TVal) : AttrProg :=
    match t.toText tv with
    | some s => .attribute name s fun r => .ret r
    | none => .ret (.ok ())
  match optional, v with
  | false, .text tv => write tv
  | true, .opt (some (.text tv)) => write tv
  | _, _ => .ret (.ok ())

/-- `serialize.rs:26-36`: the attribute fields, in order. -/
def writeAttrFields : List Field → List Val → AttrProg
  | f :: fs, v :: vs =>
    match f.kind with
    | .attribute optional t => (writeAttr optional t f.name.expanded v).andThen (writeAttrFields fs vs)
    | _ => writeAttrFields fs vs
  | _, _ => .ret (.ok ())

/-- `serialize.rs:37-46`: then the flattened fields, whose types are derived enums: `serialize.rs:139-142`. -/
def writeFlattenAttrs (env : Env) : List Field → AttrProg
  | [] => .ret (.ok ())
  | f :: fs =>
    match f.kind with
    | .flatten e => (writeNamespaces (env.enm e).namespaces).andThen (writeFlattenAttrs env fs)
    | _ => writeFlattenAttrs env fs

/-- `Serialize::write_attributes`: `serialize.rs:95-99` (struct), 139-142 (enum), `ser/mod.rs:495-497` (text types: the default
implementation). -/
def writeAttributes (env : Env) (ty : Ty) (v : Val) : AttrProg :=
  match ty, v with
  | .strct i, .strct vs =>
    (writeNamespaces (env.strct i).namespaces).andThen
      ((writeAttrFields (env.strct i).fields vs).andThen (writeFlattenAttrs env (env.strct i).fields))
  | .enm i, _ => writeNamespaces (env.enm i).namespaces
  | _, _ => .ret (.ok ())

/-- What to do after `write_children` and the like, with its result.  Not in the code: the statements after such a call, as in `ser/mod.rs:541-543` and `serialize.rs:102-103`. -/
abbrev WCont (o : Bool) (hs : List Handle) : Type := Except SErr Unit → Prog (.writer o :: hs)

/-- `serialize.rs:119`: `writer.element(name).start()?.finish()?`. -/
def writeUnit {o : Bool} {hs : List Handle} (name : EName) (k : WCont o hs) : Prog (.writer o :: hs) :=
  .element name (.start (.finish k) fun e => k (.error e))

/-- `ser/mod.rs:532-545`: `SerializeField::write` for `T`; `attrs` and `children` are what its `Serialize`
implementation does.  On `?` the builder or the writer is dropped. -/
def writeElem {o : Bool} {hs : List Handle} (name : EName) (attrs : AttrProg)
    (children : WCont true (.writer o :: hs) → Prog (.writer true :: .writer o :: hs)) (k : WCont o hs) :
    Prog (.writer o :: hs) :=
  .element name (attrs.embed fun r =>
    match r with
    | .error e => .dropBuilder (k (.error e))
    | .ok () =>
      .start (children fun r =>
        match r with
        | .error e => .dropWriter (k (.error e))
        | .ok () => .finish k) fun e => k (.error e))

mutual
/-- `Serialize::write_children`: `serialize.rs:101-104` (struct), 144-149 (enum; `_ => {}` for skipped variants,
130-134), `ser/mod.rs:623-627` (text types). -/
def writeChildren (env : Env) {o : Bool} {hs : List Handle} (ty : Ty) (v : Val) (k : WCont o hs) : Prog (.writer o :: hs) :=
  match ty, v with
  | .text t, .text tv =>
    match t.toText tv with
    | some s => .text s k
    | none => k (.ok ())
  | .strct i, .strct vs =>
    writeElemFields env (env.strct i).fields vs fun r =>
      match r with
      | .error e => k (.error e)
      | .ok () => writeFlattens env (env.strct i).fields vs k
  | .enm i, .enm j p =>
    match (env.enm i).variants[j]? with
    | none => k (.ok ())
    | some w =>
      if w.skip then k (.ok ())
      else
        match w.slot, p with
        | none, none => writeUnit w.name.expanded k
        | some s, some p => writeField env s w.name.expanded p k
        | _, _ => k (.ok ())
  | _, _ => k (.ok ())
termination_by 2 * sizeOf v
decreasing_by all_goals (simp_wf <;> (try simp only [wfParam]) <;> omega)

/-- `ser/mod.rs:532-570`: `SerializeField::write` for `T`, `Option<T>` and `Vec<T>`. -/
def writeField (env : Env) {o : Bool} {hs : List Handle} (s : Slot) (name : EName) (v : Val) (k : WCont o hs) :
    Prog (.writer o :: hs) :=
  match s.card, v with
  | .one, v => writeElem name (writeAttributes env s.ty v) (fun k => writeChildren env s.ty v k) k
  | .opt, .opt (some w) => writeElem name (writeAttributes env s.ty w) (fun k => writeChildren env s.ty w k) k
  | .many, .vec l => writeVec env s.ty name l k
  | _, _ => k (.ok ())
termination_by 2 * sizeOf v + 1
decreasing_by all_goals (simp_wf <;> (try simp only [wfParam]) <;> omega)

/-- `ser/mod.rs:565-567`: the loop over a `Vec<T>`. -/
def writeVec (env : Env) {o : Bool} {hs : List Handle} (ty : Ty) (name : EName) (l : List Val) (k : WCont o hs) :
    Prog (.writer o :: hs) :=
  match l with
  | [] => k (.ok ())
  | v :: l =>
    writeElem name (writeAttributes env ty v) (fun k => writeChildren env ty v k) fun r =>
      match r with
      | .error e => k (.error e)
      | .ok () => writeVec env ty name l k
termination_by 2 * sizeOf l
decreasing_by all_goals (simp_wf <;> (try simp only [wfParam]) <;> omega)

/-- `serialize.rs:51-61`: the element fields, in order. -/
def writeElemFields (env : Env) {o : Bool} {hs : List Handle} (fs : List Field) (vs : List Val) (k : WCont o hs) :
    Prog (.writer o :: hs) :=
  match fs, vs with
  | f :: fs, v :: vs =>
    match f.kind with
    | .element s => writeField env s f.name.expanded v fun r =>
      match r with
      | .error e => k (.error e)
      | .ok () => writeElemFields env fs vs k
    | _ => writeElemFields env fs vs k
  | _, _ => k (.ok ())
termination_by 2 * sizeOf vs
decreasing_by all_goals (simp_wf <;> (try simp only [wfParam]) <;> omega)

/-- `serialize.rs:62-71`: then the flattened fields, in order. -/
def writeFlattens (env : Env) {o : Bool} {hs : List Handle} (fs : List Field) (vs : List Val) (k : WCont o hs) :
    Prog (.writer o :: hs) :=
  match fs, vs with
  | f :: fs, v :: vs =>
    match f.kind with
    | .flatten e => writeChildren env (.enm e) v fun r =>
      match r with
      | .error e => k (.error e)
      | .ok () => writeFlattens env fs vs k
    | _ => writeFlattens env fs vs k
  | _, _ => k (.ok ())
termination_by 2 * sizeOf vs
decreasing_by all_goals (simp_wf <;> (try simp only [wfParam]) <;> omega)
end

/-- `serialize.rs:75-85`: `SerializeRoot::root` (`ser/mod.rs:509-515`), the name that `serialize` uses (`ser/mod.rs:734-741`).  Text types have none. -/
def rootName (env : Env) : Ty → Option EName
  | .text _ => none
  | .strct i => some (env.strct i).root.expanded
  | .enm i => some (env.enm i).root.expanded

/-- `ser/mod.rs:749-759,694-717`: `serialize_with_name(value, name).to(sink)`. -/
def serializeVal (dbg : Bool) (sink : Sink) (env : Env) (name : EName) (ty : Ty) (v : Val) :
    Except Fault (WState × Except SErr Unit) :=
  serializeTo dbg sink name (writeAttributes env ty v) (writeChildren env ty v .ret)

end SX
