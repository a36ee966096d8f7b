import Verif.Spec.Faithful
import Verif.Spec.Reread

/-
Values of structs with at most one flattened field each.
-/
namespace SX.Spec

/-- No struct in the value has several flattened fields. -/
inductive Singly (env : Env) : Ty → Val → Prop where
  | text {t : TextTy} {v : Val} : Singly env (.text t) v
  | strct {i : Nat} {vs : List Val}
      (one : ∀ (p q : Nat) (f g : Field) e e', (env.strct i).fields[p]? = some f → (env.strct i).fields[q]? = some g →
        f.kind = .flatten e → g.kind = .flatten e' → p = q)
      (elems : ∀ (p : Nat) (f : Field) (s : Slot) (v w : Val), (env.strct i).fields[p]? = some f → vs[p]? = some v →
        f.kind = .element s → w ∈ valuesOf s.card v → Singly env s.ty w)
      (flats : ∀ (p : Nat) (f : Field) (e : Nat) (v : Val), (env.strct i).fields[p]? = some f → vs[p]? = some v →
        f.kind = .flatten e → Singly env (.enm e) v) : Singly env (.strct i) (.strct vs)
  | unit {i j : Nat} : Singly env (.enm i) (.enm j none)
  | payload {i j : Nat} {w : Variant} {s : Slot} {p : Val} (hv : (env.enm i).variants[j]? = some w) (hs : w.slot = some s)
      (items : ∀ x ∈ valuesOf s.card p, Singly env s.ty x) : Singly env (.enm i) (.enm j (some p))

/-- Values of `default` functions are faithful, unless there are several flattened fields in them. -/
def DefaultsClear (env : Env) : Prop :=
  ∀ i (f : Field) s d, f ∈ (env.strct i).fields → f.kind = .element s → f.default = some d →
    ∀ w ∈ valuesOf s.card d, Singly env s.ty w → Faithful env s.ty w

end SX.Spec
