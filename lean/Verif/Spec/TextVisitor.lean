import Verif.Model.Reader

/-
`read_string` "via `impl ElementVisitor for String`", as a comment in it plans (`de/mod.rs:612-613`): the visitor, and any program with `read_to` and that visitor in place of each
call of `read_string`.  Uses data types of the model only.
-/
namespace SX.Spec.TextVisitor

variable {σ α : Type}

/-- The same, by a visitor of the old kind. -/
def old (r : Except Fault (σ × Except VErr Unit)) : Except Fault ((σ ⊕ String) × Except VErr Unit) :=
  match r with
  | .error f => .error f
  | .ok (v, r) => .ok (.inl v, r)

/-- The error of the visitor for text, in the words of `read_string`: the element is the last of the stack. -/
def inWords (e : Error) : Error :=
  match e.kind, e.stack.getLast? with
  | .deserializer _, some x => { e with kind := .msg (.elementInString x.name) }
  | _, _ => e

/-- The text that the visitor has, if there was no error. -/
def asText (v : σ ⊕ String) (r : Except VErr ReadToOk) : Except VErr String :=
  match v, r with
  | .inr t, .ok _ => .ok t
  | .inl _, .ok _ => .ok ""
  | _, .error (.propagate e) => .error (.propagate (inWords e))
  | _, .error (.wrap e) => .error (.wrap e)

/-- What is done with an element, without `read_string`. -/
def replaced {ρ ρ' : Type} (f : ρ → ρ') (none : ρ') : Action σ ρ → Action (σ ⊕ String) ρ'
  | .done r => .done (f r)
  | .readString k => .readTo (.inr "") fun v r => f (k (asText v r))
  | .readTo sub k => .readTo (.inl sub) fun v r => match v with | .inl v => f (k v r) | .inr _ => none

/-- Any visitors, without `read_string`, and the visitor for text: attributes are ignored, text is kept, an element is an error. -/
def withText (V : Visitor σ) : Visitor (σ ⊕ String) where
  onAttr v n x :=
    match v with
    | .inl v => old (V.onAttr v n x)
    | .inr t => .ok (.inr t, .ok ())
  onChars v x p :=
    match v with
    | .inl v =>
      match V.onChars v x p with
      | .error f => .error f
      | .ok (v, r) => .ok (.inl v, r)
    | .inr t => .ok (.inr (t ++ x), .ok ())
  onElem v i :=
    match v with
    | .inl v => replaced old (.error .panic) (V.onElem v i)
    | .inr t => .done (.ok (.inr t, .error (.wrap (.user "unexpected element"))))

/-- Any implementation, without `read_string`. -/
def deserWithText (D : Deser σ α) : Deser (σ ⊕ String) α := fun i => replaced id (.error .panic) (D i)

end SX.Spec.TextVisitor
