import Verif.Spec.DeriveSer
import Verif.Spec.Text

/-
What Rust's type system guarantees about values, without any function of the model.
-/
namespace SX.Spec

/-- The values of a text type. -/
inductive OfType : TextTy → TVal → Prop where
  | bool (b : Bool) : OfType .bool (.bool b)
  | int {t : IntTy} {n : Int} (h : inRange t.signed t.bits n) : OfType (.int t) (.int n)
  | float {f : String → Option Nat} {g : Nat → String} (n : Nat) : OfType (.float f g) (.opaque n)
  | string (s : String) : OfType .string (.str s)
  | std {ws : WhiteSpace} {f : String → Option Nat} {g : Nat → String} (n : Nat) : OfType (.std ws f g) (.opaque n)
  | known {name : String} {ws : WhiteSpace} {vs : List (Option String)} {i : Nat} {t : String} (h : vs[i]? = some (some t)) :
      OfType (.restriction name ws vs) (.known i)
  | unknown {name : String} {ws : WhiteSpace} {vs : List (Option String)} (s : String) (h : none ∈ vs) : OfType (.restriction name ws vs) (.unknown s)
  | variant {name : String} {ws : WhiteSpace} {vs : List TextTy} {i : Nat} {t : TextTy} {v : TVal} (h : vs[i]? = some t) (hv : OfType t v) :
      OfType (.union name ws vs) (.variant i v)

/-- The values of an attribute or text field. -/
def AttrTyped (optional : Bool) (t : TextTy) (v : Val) : Prop :=
  (optional = false ∧ ∃ tv, v = .text tv ∧ OfType t tv) ∨
  (optional = true ∧ (v = .opt none ∨ ∃ tv, v = .opt (some (.text tv)) ∧ OfType t tv))

/-- The values of a type. -/
inductive Typed (env : Env) : Ty → Val → Prop where
  | text {t : TextTy} {tv : TVal} (h : OfType t tv) : Typed env (.text t) (.text tv)
  | strct {i : Nat} {vs : List Val} (len : vs.length = (env.strct i).fields.length)
      (attrs : ∀ (p : Nat) (f : Field) (o : Bool) (t : TextTy) (v : Val), (env.strct i).fields[p]? = some f → vs[p]? = some v →
        f.kind = .attribute o t → AttrTyped o t v)
      (texts : ∀ (p : Nat) (f : Field) (t : TextTy) (v : Val), (env.strct i).fields[p]? = some f → vs[p]? = some v →
        f.kind = .text t → AttrTyped false t v)
      (cards : ∀ (p : Nat) (f : Field) (s : Slot) (v : Val), (env.strct i).fields[p]? = some f → vs[p]? = some v →
        f.kind = .element s → CardOk s.card v)
      (elems : ∀ (p : Nat) (f : Field) (s : Slot) (v w : Val), (env.strct i).fields[p]? = some f → vs[p]? = some v →
        f.kind = .element s → w ∈ valuesOf s.card v → Typed env s.ty w)
      (flats : ∀ (p : Nat) (f : Field) (e : Nat) (v : Val), (env.strct i).fields[p]? = some f → vs[p]? = some v →
        f.kind = .flatten e → Typed env (.enm e) v) : Typed env (.strct i) (.strct vs)
  | unit {i j : Nat} {w : Variant} (hv : (env.enm i).variants[j]? = some w) (hs : w.slot = none) :
      Typed env (.enm i) (.enm j none)
  | payload {i j : Nat} {w : Variant} {s : Slot} {p : Val} (hv : (env.enm i).variants[j]? = some w) (hs : w.slot = some s)
      (card : CardOk s.card p) (items : ∀ x ∈ valuesOf s.card p, Typed env s.ty x) :
      Typed env (.enm i) (.enm j (some p))

/-- `Default::default()` of a field is of the field's type. -/
structure DefaultsTyped (env : Env) : Prop where
  elems : ∀ i (f : Field) s d, f ∈ (env.strct i).fields → f.kind = .element s → f.default = some d →
    CardOk s.card d ∧ ∀ w ∈ valuesOf s.card d, Typed env s.ty w
  attrs : ∀ i (f : Field) o t d, f ∈ (env.strct i).fields → f.kind = .attribute o t → f.default = some d → AttrTyped o t d

end SX.Spec
