import Verif.Spec.Derive
import Verif.Spec.DeriveSer
import Verif.Spec.StackWrite

/-
How much there is in a document: `a` for each element and `b` for each attribute.
-/
namespace SX.Spec

/-- Of what is inside an element that is read. -/
def Forest.weigh (a b : Nat) : Forest → Nat
  | .nil => 0
  | .elem _ as _ _ ch _ rest => a + b * as.length + ch.weigh a b + rest.weigh a b
  | .chars _ _ _ rest => rest.weigh a b
  | .misc _ _ rest => rest.weigh a b

/-- Of an element that is read. -/
def Elem.weigh (a b : Nat) (x : Elem) : Nat := a + b * x.attrs.length + x.children.weigh a b

/-- Of what is inside an element to be written. -/
def EForest.weigh (a b : Nat) : EForest → Nat
  | .nil => 0
  | .elem _ as ch rest => a + b * as.length + ch.weigh a b + rest.weigh a b
  | .chars _ rest => rest.weigh a b

/-- Of the events that were written. -/
def written (a b : Nat) : List WEvent → Nat
  | [] => 0
  | .start _ as _ :: l => a + b * as.length + written a b l
  | _ :: l => written a b l

/-- The declared default of a field, written out, weighs at most `w`. -/
def DefaultWeighs (env : Env) (a b : Nat) (f : Field) (w : Nat) : Prop :=
  ∀ d, f.default = some d →
    match f.kind with
    | .element s => ∀ g, Shows env (fieldItems s f.name.expanded d) g → g.weigh a b ≤ w
    | .attribute o t => (attrText o t d).isSome = true → b ≤ w
    | _ => True

/-- The declared defaults of a struct weigh at most `e` together. -/
def DefaultsWeigh (env : Env) (a b e : Nat) : Prop :=
  ∀ i, ∃ w : Field → Nat, (∀ f ∈ (env.strct i).fields, DefaultWeighs env a b f (w f)) ∧
    (((env.strct i).fields.filter fun f => f.default.isSome).map w).sum ≤ e

/-- Of what the parser reports. -/
def given (a b : Nat) (l : List (XEvent × Pos)) : Nat :=
  (l.map fun x =>
    match x.1 with
    | .startElement _ as _ => a + b * as.length
    | _ => 0).sum

/-- How many elements are inside each other. -/
def Forest.depth : Forest → Nat
  | .nil => 0
  | .elem _ _ _ _ children _ rest => max (children.depth + 1) rest.depth
  | .chars _ _ _ rest => rest.depth
  | .misc _ _ rest => rest.depth

/-- Declared defaults, written out, have at most `e` elements inside each other. -/
def DefaultsDeep (env : Env) (e : Nat) : Prop :=
  ∀ i, ∀ f ∈ (env.strct i).fields, ∀ s d, f.kind = .element s → f.default = some d →
    ∀ g, Shows env (fieldItems s f.name.expanded d) g → g.depth ≤ e

end SX.Spec
