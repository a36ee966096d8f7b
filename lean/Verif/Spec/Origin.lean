import Verif.Model.ErrorSource

/-
Where the errors of reading come from (C69).
-/
namespace SX.Spec

/-- Of the errors an implementation returns, those in `own` are its own; others were given to it. -/
def Action.Makes {σ ρ : Type} (own : VErr → Prop) (returns : ρ → VErr → Prop) : Action σ ρ → Prop
  | .done r => ∀ e, returns r e → own e
  | .readString k => ∀ r e, returns (k r) e → own e ∨ r = .error e
  | .readTo _ k => ∀ sub r e, returns (k sub r) e → own e ∨ r = .error e

/-- A visitor whose own errors are in `own`. -/
structure Makes {σ : Type} (own : VErr → Prop) (V : Visitor σ) : Prop where
  attr : ∀ v n s v' e, V.onAttr v n s = .ok (v', .error e) → own e
  chars : ∀ v s p v' e, V.onChars v s p = .ok (v', .error e) → own (.wrap e)
  elem : ∀ v i, Action.Makes own (fun r e => ∃ v', r = .ok (v', .error e)) (V.onElem v i)

def DeserMakes {σ α : Type} (own : VErr → Prop) (D : Deser σ α) : Prop :=
  ∀ i, Action.Makes own (fun r e => r = .ok (.error e)) (D i)

/-- The cause to look for behind an error of the parser: what the parser was told by the operating system or found to be no UTF-8, not
the parser's wrapping of it; if there is no such thing, the parser's error. -/
def Behind (x : XmlErr) (c : Source) : Prop :=
  (∃ e, x.kind = .io e ∧ c = .io e) ∨ (∃ e, x.kind = .utf8 e ∧ c = .utf8 e) ∨ (x.kind = .syntax ∨ x.kind = .unexpectedEof) ∧ c = .xml x

/-- The errors that derived code has of its own: those of `VisitorError`'s constructors (`de/mod.rs:38-84`) and those of text types. -/
def derivedOwn : VErr → Prop
  | .propagate _ => False
  | .wrap (.user _) => False
  | .wrap _ => True

end SX.Spec
