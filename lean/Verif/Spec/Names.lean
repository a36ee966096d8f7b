import Verif.Model.Names

/-
Specification vocabulary for names: plain order on pairs, no reference to the code's comparisons.
-/
namespace SX.Spec

/-- Order of names: by namespace, then by local name. -/
def nameLe (a b : EName) : Prop := a.ns < b.ns ∨ (a.ns = b.ns ∧ (a.loc < b.loc ∨ a.loc = b.loc))

/-- A sorted table: every entry is at most every later one. -/
def Sorted (t : List EName) : Prop :=
  ∀ (i j : Nat) (x y : EName), i < j → t[i]? = some x → t[j]? = some y → nameLe x y

/-- The name a declaration stands for: a missing namespace is the empty one. -/
def declared (d : DName) : EName := { ns := d.ns.getD "", loc := d.loc }

/-- A name without a namespace does not come after one with the empty namespace, by local name. -/
def NoneFirst (names : List DName) : Prop :=
  ∀ d ∈ names, ∀ e ∈ names, d.ns = none → e.ns = some "" → ¬ e.loc < d.loc

/-- No braces, as in every local name and in every URI. -/
def NoBraces (s : String) : Prop := ∀ c ∈ s.toList, c ≠ '{' ∧ c ≠ '}'

end SX.Spec
