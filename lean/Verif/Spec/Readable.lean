import Verif.Spec.Typed
import Verif.Spec.Stream

/-
Specification for C71 and C72: what can be read at all, whatever the input and whatever the declarations.
-/
namespace SX.Spec

/-- What an action returns is good, if the visitor it starts keeps the invariant of some kind it has. -/
def Action.Within {κ σ ρ : Type} (I : κ → σ → Prop) (good : ρ → Prop) : Action σ ρ → Prop
  | .done r => good r
  | .readString k => ∀ r, good (k r)
  | .readTo sub k => ∃ kind, I kind sub ∧ ∀ sub r, I kind sub → good (k sub r)

/-- Visitors of each kind keep that kind's invariant: it holds after each call if it did before. -/
structure Keeps {κ σ : Type} (I : κ → σ → Prop) (V : Visitor σ) : Prop where
  attr : ∀ kind v n s v' r, I kind v → V.onAttr v n s = .ok (v', r) → I kind v'
  chars : ∀ kind v s p v' r, I kind v → V.onChars v s p = .ok (v', r) → I kind v'
  elem : ∀ kind v i, I kind v → Action.Within I (fun r => ∀ v' x, r = .ok (v', x) → I kind v') (V.onElem v i)

/-- The value a field has if nothing is read for it. -/
def IsAbsent (f : Field) (v : Val) : Prop :=
  f.default = some v ∨ f.default = none ∧
    match f.kind with
    | .element ⟨.opt, _⟩ => v = .opt none
    | .element ⟨.many, _⟩ => v = .vec []
    | .attribute true _ => v = .opt none
    | _ => False

/-- What is read for an element: at least one, and not more than fit. -/
def CardRead : Card → Val → Prop
  | .one, _ => True
  | .opt, v => ∃ w, v = .opt (some w)
  | .many, v => ∃ w l, v = .vec (w :: l)

/-- The values that can be read: those of the type in which only fields and variants that are `chosen` have anything from a document. -/
inductive CanBeRead (env : Env) (field variant : Nat → Nat → Prop) : Ty → Val → Prop where
  | text {t : TextTy} {tv : TVal} (h : OfType t tv) : CanBeRead env field variant (.text t) (.text tv)
  | strct {i : Nat} {vs : List Val} (len : vs.length = (env.strct i).fields.length)
      (noText : ∀ f ∈ (env.strct i).fields, ∀ t, f.kind ≠ .text t)
      (attrs : ∀ (p : Nat) (f : Field) (o : Bool) (t : TextTy) (v : Val), (env.strct i).fields[p]? = some f → vs[p]? = some v →
        f.kind = .attribute o t → ¬ IsAbsent f v → field i p ∧ AttrTyped o t v)
      (cards : ∀ (p : Nat) (f : Field) (s : Slot) (v : Val), (env.strct i).fields[p]? = some f → vs[p]? = some v →
        f.kind = .element s → ¬ IsAbsent f v → field i p ∧ CardRead s.card v)
      (elems : ∀ (p : Nat) (f : Field) (s : Slot) (v w : Val), (env.strct i).fields[p]? = some f → vs[p]? = some v →
        f.kind = .element s → ¬ IsAbsent f v → w ∈ valuesOf s.card v → CanBeRead env field variant s.ty w)
      (flats : ∀ (p : Nat) (f : Field) (e : Nat) (v : Val), (env.strct i).fields[p]? = some f → vs[p]? = some v →
        f.kind = .flatten e → CanBeRead env field variant (.enm e) v) : CanBeRead env field variant (.strct i) (.strct vs)
  | unit {i j : Nat} {w : Variant} (hv : (env.enm i).variants[j]? = some w) (hs : w.slot = none) (hc : variant i j) :
      CanBeRead env field variant (.enm i) (.enm j none)
  | payload {i j : Nat} {w : Variant} {s : Slot} {p : Val} (hv : (env.enm i).variants[j]? = some w) (hs : w.slot = some s) (hc : variant i j)
      (card : CardRead s.card p) (items : ∀ x ∈ valuesOf s.card p, CanBeRead env field variant s.ty x) :
      CanBeRead env field variant (.enm i) (.enm j (some p))

/-- Of the elements (attributes) of a struct that have one name, one at most is chosen; likewise of the variants of an enum.  Skipped variants are
not. -/
structure OneOfEach (env : Env) (field variant : Nat → Nat → Prop) : Prop where
  elems : ∀ i (p q : Nat) (f g : Field) s s', (env.strct i).fields[p]? = some f → (env.strct i).fields[q]? = some g →
    f.kind = .element s → g.kind = .element s' → f.name.expanded = g.name.expanded → field i p → field i q → p = q
  attrs : ∀ i (p q : Nat) (f g : Field) o t o' t', (env.strct i).fields[p]? = some f → (env.strct i).fields[q]? = some g →
    f.kind = .attribute o t → g.kind = .attribute o' t' → f.name.expanded = g.name.expanded → field i p → field i q → p = q
  variants : ∀ i (p q : Nat) (v w : Variant), (env.enm i).variants[p]? = some v → (env.enm i).variants[q]? = some w →
    v.name.expanded = w.name.expanded → variant i p → variant i q → p = q
  skipped : ∀ i (p : Nat) (v : Variant), (env.enm i).variants[p]? = some v → variant i p → v.skip = false

end SX.Spec
