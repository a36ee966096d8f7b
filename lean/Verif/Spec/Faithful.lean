import Verif.Spec.RoundTrip

/-
The values that are read back, whatever the types.
-/
namespace SX.Spec

/-- A struct whose flattened field does not get in the way: there is at most one, and its variant has another name than every element field. -/
def FlatClear (env : Env) (fields : List Field) (vs : List Val) : Prop :=
  (∀ (p q : Nat) (f g : Field) e e', fields[p]? = some f → fields[q]? = some g → f.kind = .flatten e → g.kind = .flatten e' → p = q) ∧
  ∀ (p : Nat) (f : Field) (e j : Nat) (o : Option Val) (w : Variant), fields[p]? = some f → vs[p]? = some (.enm j o) → f.kind = .flatten e →
    (env.enm e).variants[j]? = some w → ∀ g ∈ fields, ∀ s, g.kind = .element s → g.name.expanded ≠ w.name.expanded

/-- `Readable`, and nothing flattened gets in the way anywhere. -/
inductive Faithful (env : Env) : Ty → Val → Prop where
  | text {t : TextTy} {tv : TVal} {s : String} (hs : t.toText tv = some s) (hp : t.parse (visible s) = .ok tv) :
      Faithful env (.text t) (.text tv)
  | strct {i : Nat} {vs : List Val} (len : vs.length = (env.strct i).fields.length)
      (attrs : ∀ (p : Nat) (f : Field) (v : Val) o t, (env.strct i).fields[p]? = some f → vs[p]? = some v → f.kind = .attribute o t →
        AttrReadable f o t v)
      (card : ∀ (p : Nat) (f : Field) (s : Slot) (v : Val), (env.strct i).fields[p]? = some f → vs[p]? = some v → f.kind = .element s →
        CardOk s.card v ∧ (valuesOf s.card v = [] → f.default.or (slotAbsent s) = some v))
      (elems : ∀ (p : Nat) (f : Field) (s : Slot) (v w : Val), (env.strct i).fields[p]? = some f → vs[p]? = some v →
        f.kind = .element s → w ∈ valuesOf s.card v → Faithful env s.ty w)
      (flats : ∀ (p : Nat) (f : Field) (e : Nat) (v : Val), (env.strct i).fields[p]? = some f → vs[p]? = some v →
        f.kind = .flatten e → Faithful env (.enm e) v)
      (clear : FlatClear env (env.strct i).fields vs) : Faithful env (.strct i) (.strct vs)
  | unit {i j : Nat} {w : Variant} (hv : (env.enm i).variants[j]? = some w) (hs : w.slot = none) :
      Faithful env (.enm i) (.enm j none)
  | payload {i j : Nat} {w : Variant} {s : Slot} {p : Val} (hv : (env.enm i).variants[j]? = some w) (hs : w.slot = some s)
      (card : CardOk s.card p) (ne : valuesOf s.card p ≠ []) (items : ∀ x ∈ valuesOf s.card p, Faithful env s.ty x) :
      Faithful env (.enm i) (.enm j (some p))

end SX.Spec
