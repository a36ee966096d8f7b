import Verif.Model.Open

/-
How the visitors of `Model/Open.lean` are run by the reader of `Model/Reader.lean`: derived types with fields of arbitrary types, read from input.
-/
namespace SX.Open

variable {σ τ α : Type}

/-- What `read_to` sees of the answer to an attribute or to text (`de/mod.rs:559-576`): what is handed back is ignored, and a panic ends everything.
`emb` makes the visitor's state one of the states of all visitors of a run. -/
def heardText {ε : Type} (emb : τ → σ) : Except Fault (τ × Ret ε (Option String)) → Except Fault (σ × Except ε Unit)
  | .error x => .error x
  | .ok (t, .ok _) => .ok (emb t, .ok ())
  | .ok (t, .err e) => .ok (emb t, .error e)
  | .ok (_, .panic) => .error .panic

/-- The same when a child has been read (`de/mod.rs:578-598`). -/
def heardRead (emb : τ → σ) : Except Fault (τ × Ret VErr Unit) → Except Fault (σ × Except VErr Unit)
  | .error x => .error x
  | .ok (t, .ok ()) => .ok (emb t, .ok ())
  | .ok (t, .err e) => .ok (emb t, .error e)
  | .ok (_, .panic) => .error .panic

/-- The same for a child (`de/mod.rs:578-598`). -/
def heardElem (emb : τ → σ) : Except Fault (Offer σ τ) → Action σ (Except Fault (σ × Except VErr Unit))
  | .error x => .done (.error x)
  | .ok (.back t) => .done (.ok (emb t, .ok ()))
  | .ok (.take a) => a.map (heardRead emb)

/-- The visitors of a run (`de/mod.rs:777-820`), of which the one of a type is one.  The others are arbitrary: they are those that the implementations for
the types of fields use. -/
structure Includes (V : Visitor σ) (raw : Raw σ τ α) (emb : τ → σ) : Prop where
  attr : ∀ t n s, V.onAttr (emb t) n s = heardText emb (raw.attr t n s)
  chars : ∀ t s pos, V.onChars (emb t) s pos = heardText emb (raw.characters t s pos)
  elem : ∀ t info, V.onElem (emb t) info = heardElem emb (raw.element t info)

/-- `finalize(visitor, None)?` and `assume_init` (`de/mod.rs:751-753`). -/
def finishRaw (raw : Raw σ τ α) (t : τ) : Except Fault (Except VErr α) :=
  match raw.finalize t none with
  | .error x => .error x
  | .ok (t, .ok ()) =>
    match raw.out t with
    | some v => .ok (.ok v)
    | none => .error .ub
  | .ok (_, .err e) => .ok (.error e)
  | .ok (_, .panic) => .error .panic

/-- `impl_deserialize_via_raw!` (`de/mod.rs:741-757`).  `proj` finds the visitor's state among the states of a run (in Rust the types say that it is
there). -/
def deserVia (raw : Raw σ τ α) (emb : τ → σ) (proj : σ → Option τ) : Deser σ α := fun _ =>
  .readTo (emb raw.new) fun sub r =>
    match r with
    | .error e => .ok (.error e)
    | .ok _ =>
      match proj sub with
      | none => .error .panic
      | some t => finishRaw raw t

/-- How `T::deserialize` ends.  `de/mod.rs:960,974,989,993`.  Simplification: a fault of `T`'s own code is a panic here. -/
def deserRet {β : Type} : Except Fault (Except VErr β) → Ret VErr β
  | .error _ => .panic
  | .ok (.ok v) => .ok v
  | .ok (.error e) => .err e

/-- `DeserializeElementField` for any `T: Deserialize` (`de/mod.rs:958-970`). -/
def deOne {β : Type} (D : Deser σ β) : FieldImpl σ β where
  init info := (D info).map deserRet
  update v info := .done (v, .err (.wrap (.duplicateElement info.name.expanded)))
  missing n := .err (.wrap (.missingElement n))

/-- `DeserializeElementField` for `Option<T>` (`de/mod.rs:972-984`). -/
def deOpt {β : Type} (D : Deser σ β) : FieldImpl σ (Option β) where
  init info := (D info).map fun r =>
    match deserRet r with
    | .ok v => .ok (some v)
    | .err e => .err e
    | .panic => .panic
  update v info := .done (v, .err (.wrap (.duplicateElement info.name.expanded)))
  missing _ := .ok none

/-- `DeserializeElementField` for `Vec<T>` (`de/mod.rs:986-1000`). -/
def deVec {β : Type} (D : Deser σ β) : FieldImpl σ (List β) where
  init info := (D info).map fun r =>
    match deserRet r with
    | .ok v => .ok [v]
    | .err e => .err e
    | .panic => .panic
  update l info := (D info).map fun r =>
    match deserRet r with
    | .ok v => (l ++ [v], .ok ())
    | .err e => (l, .err e)
    | .panic => (l, .panic)
  missing _ := .ok []

/-- `DeserializeAttrField` for any `T: ParseText` (`de/mod.rs:1002-1010`); `parse`: its `parse`, which may also panic. -/
def deAttr {β : Type} (parse : String → Ret DErr β) : AttrImpl β where
  init value :=
    match parse value with
    | .ok v => .ok v
    | .err e => .err (.wrap e)
    | .panic => .panic
  missing n := .err (.wrap (.missingAttribute n))

/-- `DeserializeAttrField` for `Option<T>` (`de/mod.rs:1012-1020`). -/
def deAttrOpt {β : Type} (parse : String → Ret DErr β) : AttrImpl (Option β) where
  init value :=
    match parse value with
    | .ok v => .ok (some v)
    | .err e => .err (.wrap e)
    | .panic => .panic
  missing _ := .ok none

/-- `Deserialize` for any `T: ParseText` (`de/mod.rs:1067-1072`). -/
def deText {β : Type} (parse : String → Ret DErr β) : Deser σ β := fun _ =>
  .readString fun r =>
    match r with
    | .error e => .ok (.error e)
    | .ok s =>
      match parse s with
      | .ok v => .ok (.ok v)
      | .err e => .ok (.error (.wrap e))
      | .panic => .error .panic

/-- The same implementation of `DeserializeElementField` (`de/mod.rs:685-696`), its values seen as some of the values of all field types.  Not in the
code: fields of a Rust struct have different types. -/
def FieldImpl.into {β : Type} (impl : FieldImpl σ β) (inj : β → α) (get : α → Option β) : FieldImpl σ α where
  init info := (impl.init info).map fun r =>
    match r with
    | .ok v => .ok (inj v)
    | .err e => .err e
    | .panic => .panic
  update a info :=
    match get a with
    | none => .done (a, .panic)
    | some v => (impl.update v info).map fun r => (inj r.1, r.2)
  missing n :=
    match impl.missing n with
    | .ok v => .ok (inj v)
    | .err e => .err e
    | .panic => .panic

/-- The same for `DeserializeAttrField` (`de/mod.rs:701-707`). -/
def AttrImpl.into {β : Type} (impl : AttrImpl β) (inj : β → α) : AttrImpl α where
  init s :=
    match impl.init s with
    | .ok v => .ok (inj v)
    | .err e => .err e
    | .panic => .panic
  missing n :=
    match impl.missing n with
    | .ok v => .ok (inj v)
    | .err e => .err e
    | .panic => .panic

/-- The same for the result of a method of a visitor (`de/mod.rs:710-720`): its state seen as some of the states of all flattened fields. -/
def stateInto {τ' ε γ : Type} (it : τ' → τ) : Except Fault (τ' × Ret ε γ) → Except Fault (τ × Ret ε γ)
  | .error x => .error x
  | .ok (t, r) => .ok (it t, r)

/-- The same for `RawDeserializeVisitor` (`de/mod.rs:710-720`): `it` and `gt` for the states of the visitor, `inj` and `get` for its values. -/
def Raw.into {τ' β : Type} (raw : Raw σ τ' β) (it : τ' → τ) (gt : τ → Option τ') (inj : β → α) (get : α → Option β) : Raw σ τ α where
  new := it raw.new
  attr t n v :=
    match gt t with
    | none => .error .panic
    | some t => stateInto it (raw.attr t n v)
  characters t s pos :=
    match gt t with
    | none => .error .panic
    | some t => stateInto it (raw.characters t s pos)
  element t info :=
    match gt t with
    | none => .error .panic
    | some t =>
      match raw.element t info with
      | .error x => .error x
      | .ok (.back t) => .ok (.back (it t))
      | .ok (.take a) => .ok (.take (a.map (stateInto it)))
  finalize t default :=
    match gt t with
    | none => .error .panic
    | some t => stateInto it (raw.finalize t (default.map fun r =>
        match r with
        | .ok a =>
          match get a with
          | some b => .ok b
          | none => .panic
        | .err e => .err e
        | .panic => .panic))
  out t := (gt t).bind fun t => (raw.out t).map inj

end SX.Open
