import Verif.Model.UnwindDe
import Verif.Spec.Tree

/-
What it means to let visitors that panic, and that catch panics, traverse a document (compare `Spec/Tree.lean`).
-/
namespace SX.Spec.UnwindDe
open SX.UnwindDe SX.Open

/-- Attributes are presented in order until one is rejected or there is a panic. -/
def attributes {σ : Type} (V : PVisitor σ) (here : List StackElem) (pos : Pos) : List XAttr → σ → σ × Ret Error Unit
  | [], v => (v, .ok ())
  | a :: as, v =>
    match V.onAttr v a.name.expanded a.value with
    | (v, .err (.propagate e)) => (v, .err e)
    | (v, .err (.wrap e)) => (v, .err { kind := .deserializer e, stack := here, pos })
    | (v, .panic) => (v, .panic)
    | (v, .ok ()) => attributes V here pos as v

/-- How the content of an element was left. -/
inductive Left where
  | atEnd
  | rejected (e : Error) (at_ : Stop)
  | panicked (at_ : Stop)

/-- The nodes of an element (whose path from the root is `path`) are presented in order, until one is rejected or there is a panic.  What follows a
child is presented next, however the child was left. -/
def content {σ : Type} (V : PVisitor σ) (path : List StackElem) : Forest → σ → σ × Left
  | .nil, v => (v, .atEnd)
  | .misc _ _ rest, v => content V path rest v
  | .chars s _ pos rest, v =>
    match V.onChars v s pos with
    | (v, .err e) => (v, .rejected { kind := .deserializer e, stack := path, pos } { path, pos })
    | (v, .panic) => (v, .panicked { path, pos })
    | (v, .ok ()) => content V path rest v
  | .elem name attrs ns pos children endPos rest, v =>
    let here := path ++ [{ name, pos }]
    let r : (σ × Ret VErr Unit) × Stop :=
      match V.onElem v { name, ns, depth := here.length } with
      | .done r => (r, { path := here, pos })
      | .readString k => (k (asText here children endPos).1, (asText here children endPos).2)
      | .readTo sub k =>
        match attributes V here pos attrs sub with
        | (sub, .err e) => (k sub (.err (.propagate e)), { path := here, pos })
        | (sub, .panic) => (k sub .panic, { path := here, pos })
        | (sub, .ok ()) =>
          match content V here children sub with
          | (sub, .rejected e stop) => (k sub (.err (.propagate e)), stop)
          | (sub, .panicked stop) => (k sub .panic, stop)
          | (sub, .atEnd) => (k sub (.ok (name, ns, endPos)), { path := here, pos := endPos })
    match r with
    | ((v, .err (.propagate e)), stop) => (v, .rejected e stop)
    | ((v, .err (.wrap e)), stop) => (v, .rejected { kind := .deserializer e, stack := stop.path, pos } stop)
    | ((v, .panic), stop) => (v, .panicked stop)
    | ((v, .ok ()), _) => content V path rest v

/-- An implementation given a whole element. -/
def deser {σ α : Type} (V : PVisitor σ) (D : PDeser σ α) (path : List StackElem) (x : Elem) : Ret VErr α × Stop :=
  let here := path ++ [{ name := x.name, pos := x.pos }]
  match D { name := x.name, ns := x.ns, depth := here.length } with
  | .done r => (r, { path := here, pos := x.pos })
  | .readString k => (k (asText here x.children x.endPos).1, (asText here x.children x.endPos).2)
  | .readTo sub k =>
    match attributes V here x.pos x.attrs sub with
    | (sub, .err e) => (k sub (.err (.propagate e)), { path := here, pos := x.pos })
    | (sub, .panic) => (k sub .panic, { path := here, pos := x.pos })
    | (sub, .ok ()) =>
      match content V here x.children sub with
      | (sub, .rejected e stop) => (k sub (.err (.propagate e)), stop)
      | (sub, .panicked stop) => (k sub .panic, stop)
      | (sub, .atEnd) => (k sub (.ok (x.name, x.ns, x.endPos)), { path := here, pos := x.endPos })

/-- Reading a document is giving its root element to the implementation. -/
def readDoc {σ α : Type} (V : PVisitor σ) (D : PDeser σ α) (d : Doc) : Ret Error α :=
  match deser V D [] d.root with
  | (.ok a, _) => .ok a
  | (.err (.propagate e), _) => .err e
  | (.err (.wrap e), stop) => .err { kind := .deserializer e, stack := stop.path, pos := stop.pos }
  | (.panic, _) => .panic

/-- A continuation that does not turn an error or panic of the read it continues into a success. -/
def Passes {σ ρ : Type} (bad : ρ → Prop) : PAction σ ρ → Prop
  | .done _ => True
  | .readString k => ∀ e, bad (k (.error e))
  | .readTo _ k => (∀ sub e, bad (k sub (.err e))) ∧ ∀ sub, bad (k sub .panic)

/-- A visitor that, when reading a child fails or panics, fails or panics itself. -/
def NoSwallow {σ : Type} (V : PVisitor σ) : Prop := ∀ v info, Passes (fun r => r.2 ≠ .ok ()) (V.onElem v info)

/-- The same for an implementation. -/
def DeserNoSwallow {σ α : Type} (D : PDeser σ α) : Prop := ∀ info, Passes (fun r => ∀ a, r ≠ .ok a) (D info)

/-- What an action returns is good, if the visitor it starts keeps the invariant of some kind it has, also when it panics. -/
def Within {κ σ ρ : Type} (I : κ → σ → Prop) (good : ρ → Prop) : PAction σ ρ → Prop
  | .done r => good r
  | .readString k => ∀ r, good (k r)
  | .readTo sub k => ∃ kind, I kind sub ∧ ∀ sub r, I kind sub → good (k sub r)

/-- Visitors of each kind keep that kind's invariant: it holds after each call if it did before, also if the call panicked. -/
structure Keeps {κ σ : Type} (I : κ → σ → Prop) (V : PVisitor σ) : Prop where
  attr : ∀ kind v n s, I kind v → I kind (V.onAttr v n s).1
  chars : ∀ kind v s p, I kind v → I kind (V.onChars v s p).1
  elem : ∀ kind v i, I kind v → Within I (fun r => I kind r.1) (V.onElem v i)

/-- A continuation that has no `catch_unwind` around the read it continues. -/
def Uncaught {σ ρ : Type} (panics : ρ → Prop) : PAction σ ρ → Prop
  | .readTo _ k => ∀ sub, panics (k sub .panic)
  | _ => True

/-- A visitor that does not catch panics. -/
def NoCatch {σ : Type} (V : PVisitor σ) : Prop := ∀ v info, Uncaught (fun r => r.2 = .panic) (V.onElem v info)

/-- The same for an implementation. -/
def DeserNoCatch {σ α : Type} (D : PDeser σ α) : Prop := ∀ info, Uncaught (fun r => r = .panic) (D info)

/-- The same result, where a panic is a fault. -/
def faultOf {ε α : Type} : Ret ε α → Except Fault (Except ε α)
  | .ok a => .ok (.ok a)
  | .err e => .ok (.error e)
  | .panic => .error .panic

/-- The same for a visitor, which is lost with the panic. -/
def faultWith {σ ε α : Type} : σ × Ret ε α → Except Fault (σ × Except ε α)
  | (v, .ok a) => .ok (v, .ok a)
  | (v, .err e) => .ok (v, .error e)
  | (_, .panic) => .error .panic

/-- The result of a read as `Ret`. -/
def retOf {ε α : Type} : Except ε α → Ret ε α
  | .ok a => .ok a
  | .error e => .err e

/-- The visitor as one of `Model/Reader.lean`, where panics are faults that nobody catches. -/
def plain {σ : Type} (V : PVisitor σ) : Visitor σ where
  onAttr v n s := faultWith (V.onAttr v n s)
  onChars v s p := faultWith (V.onChars v s p)
  onElem v i :=
    match V.onElem v i with
    | .done r => .done (faultWith r)
    | .readString k => .readString fun r => faultWith (k r)
    | .readTo sub k => .readTo sub fun sub r => faultWith (k sub (retOf r))

/-- The same for an implementation. -/
def plainD {σ α : Type} (D : PDeser σ α) : Deser σ α := fun i =>
  match D i with
  | .done r => .done (faultOf r)
  | .readString k => .readString fun r => faultOf (k r)
  | .readTo sub k => .readTo sub fun sub r => faultOf (k sub (retOf r))

end SX.Spec.UnwindDe
