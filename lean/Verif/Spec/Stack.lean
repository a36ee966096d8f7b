import Verif.Model.Stack
import Verif.Spec.DeriveForms

/-
How deep the calls for a type can be nested.
-/
namespace SX.Spec

/-- There is a chain of `n` types, each the declared type of some child of the one before, that starts with `ty` and consists of structs and
enums. -/
inductive Nests (env : Env) : Ty → Nat → Prop where
  | strct (i : Nat) : Nests env (.strct i) 1
  | enm (i : Nat) : Nests env (.enm i) 1
  | child {ty ty' : Ty} {name : EName} {n : Nat} (h : use env ty name = .as ty') (rest : Nests env ty' n) : Nests env ty (n + 1)

/-- A type that is the declared type of some child of itself, or of a child of a child, and so on. -/
inductive Reaches (env : Env) : Ty → Ty → Prop where
  | child {ty ty' : Ty} {name : EName} (h : use env ty name = .as ty') : Reaches env ty ty'
  | trans {a b c : Ty} (h : Reaches env a b) (h' : Reaches env b c) : Reaches env a c

/-- `Safe r v`: with room for `r` calls, the visitor `v` runs without overflow. -/
structure Bounded {σ : Type} (V : Visitor σ) (Safe : Nat → σ → Prop) : Prop where
  attr : ∀ {r v n s v' e}, Safe r v → V.onAttr v n s = .ok (v', e) → Safe r v'
  chars : ∀ {r v s p v' e}, Safe r v → V.onChars v s p = .ok (v', e) → Safe r v'
  done : ∀ {r v info v' e}, Safe r v → V.onElem v info = .done (.ok (v', e)) → Safe r v'
  text : ∀ {r v info k x v' e}, Safe r v → V.onElem v info = .readString k → k x = .ok (v', e) → Safe r v'
  room : ∀ {r v info sub k}, Safe r v → V.onElem v info = .readTo sub k → ∃ r', r = r' + 1 ∧ Safe r' sub
  after : ∀ {r v info sub k sub' x v' e}, Safe r v → V.onElem v info = .readTo sub k → k sub' x = .ok (v', e) → Safe r v'

end SX.Spec
