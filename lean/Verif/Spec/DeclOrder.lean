import Verif.Spec.Derive
import Verif.Spec.DeriveSer

/-
Declarations in another order: the same fields and variants at other places.
-/
namespace SX.Spec

/-- Where declarations were before. -/
structure Places where
  /-- Of a struct: the place that the field now at a place had. -/
  field : Nat → Nat → Nat
  /-- Of an enum. -/
  variant : Nat → Nat → Nat

mutual
/-- The same value, with its fields and variants at their new places. -/
inductive SameVal (m : Places) (env env' : Env) : Ty → Val → Val → Prop where
  | text {t v} : SameVal m env env' (.text t) v v
  | strct {i vs vs'} : vs.length = (env.strct i).fields.length → vs'.length = (env'.strct i).fields.length →
      (∀ (p : Nat) (f : Field) (v v' : Val), (env'.strct i).fields[p]? = some f → vs[m.field i p]? = some v → vs'[p]? = some v' → SameField m env env' f.kind v v') →
      SameVal m env env' (.strct i) (.strct vs) (.strct vs')
  | unit {i j w} : (env'.enm i).variants[j]? = some w → w.slot = none → SameVal m env env' (.enm i) (.enm (m.variant i j) none) (.enm j none)
  | payload {i j w s p p'} : (env'.enm i).variants[j]? = some w → w.slot = some s → SameSlot m env env' s p p' →
      SameVal m env env' (.enm i) (.enm (m.variant i j) (some p)) (.enm j (some p'))

/-- A `T`, `Option<T>` or `Vec<T>` with the same in it. -/
inductive SameSlot (m : Places) (env env' : Env) : Slot → Val → Val → Prop where
  | mk {s v v'} : CardOk s.card v → CardOk s.card v' → SameAll m env env' s.ty (valuesOf s.card v) (valuesOf s.card v') → SameSlot m env env' s v v'

inductive SameAll (m : Places) (env env' : Env) : Ty → List Val → List Val → Prop where
  | nil {ty} : SameAll m env env' ty [] []
  | cons {ty v v' l l'} : SameVal m env env' ty v v' → SameAll m env env' ty l l' → SameAll m env env' ty (v :: l) (v' :: l')

inductive SameField (m : Places) (env env' : Env) : Kind → Val → Val → Prop where
  | element {s v v'} : SameSlot m env env' s v v' → SameField m env env' (.element s) v v'
  | «attribute» {o t v} : SameField m env env' (.attribute o t) v v
  | flatten {e v v'} : SameVal m env env' (.enm e) v v' → SameField m env env' (.flatten e) v v'
end

/-- A declaration as it was: name, type, and default.  (The name of a flattened field is not used.) -/
structure SameDecl (m : Places) (env env' : Env) (f f' : Field) : Prop where
  name : (∀ e, f.kind ≠ .flatten e) → f'.name.expanded = f.name.expanded
  kind : f'.kind = f.kind
  default : match f.default, f'.default with
    | none, none => True
    | some v, some v' => SameField m env env' f.kind v v'
    | _, _ => False

/-- The declarations of `env` in another order; but flattened fields keep theirs. -/
structure Reordered (m : Places) (env env' : Env) : Prop where
  /-- Each field is one of before, -/
  fields : ∀ i (p : Nat) (f' : Field), (env'.strct i).fields[p]? = some f' → ∃ f, (env.strct i).fields[m.field i p]? = some f ∧ SameDecl m env env' f f'
  /-- and none is missing. -/
  all : ∀ i (q : Nat), q < (env.strct i).fields.length → ∃ p, p < (env'.strct i).fields.length ∧ m.field i p = q
  flattened : ∀ i (p q : Nat) (f g : Field) e e', (env'.strct i).fields[p]? = some f → (env'.strct i).fields[q]? = some g → f.kind = .flatten e → g.kind = .flatten e' →
    p < q → m.field i p < m.field i q
  idents : ∀ i, (env'.enm i).ident = (env.enm i).ident
  variants : ∀ i (p : Nat) (w' : Variant), (env'.enm i).variants[p]? = some w' → ∃ w, (env.enm i).variants[m.variant i p]? = some w ∧
    w'.name.expanded = w.name.expanded ∧ w'.slot = w.slot
  allVariants : ∀ i (q : Nat), q < (env.enm i).variants.length → ∃ p, p < (env'.enm i).variants.length ∧ m.variant i p = q

/-- Something that is not there. -/
def Missing : ErrKind → Prop
  | .deserializer (.missingElement _) => True
  | .deserializer (.missingAttribute _) => True
  | .deserializer (.cantBeEmpty _) => True
  | _ => False

/-- At the same place; and the same, unless something is missing both times. -/
structure SameError (E E' : Error) : Prop where
  stack : E'.stack = E.stack
  pos : E'.pos = E.pos
  kind : E'.kind = E.kind ∨ Missing E.kind ∧ Missing E'.kind

end SX.Spec
