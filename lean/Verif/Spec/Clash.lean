import Verif.Spec.Open

/-
Specification for C71: declarations in which several fields, or several variants, have one name.  (The macro does not reject them.)
-/
namespace SX.Spec.Clash
open SX.Open SX.Spec.Open

/-- Both fields are elements, or both are attributes. -/
def SameSort {σ τ α : Type} (f g : OField σ τ α) : Prop :=
  (∃ i j, f.kind = .element i ∧ g.kind = .element j) ∨ (∃ i j, f.kind = .attribute i ∧ g.kind = .attribute j)

/-- One of the fields of each sort and name is chosen. -/
def ChoosesField {σ τ α : Type} (fields : List (OField σ τ α)) (chosen : Nat → Prop) : Prop :=
  ∀ (p : Nat) f, fields[p]? = some f → (∀ raw, f.kind ≠ .flatten raw) →
    ∃ q, (∃ g, fields[q]? = some g ∧ SameSort f g ∧ g.name.expanded = f.name.expanded ∧ chosen q) ∧
      ∀ q' g, fields[q']? = some g → SameSort f g → g.name.expanded = f.name.expanded → chosen q' → q' = q

/-- What an enum's visitor makes of a child if `choice` says which variant a name stands for; see `onChild`. -/
def onChildBy {σ α : Type} (choice : EName → Option Nat) (vs : List (OVariant σ α)) (held : Option (Nat × Option α)) (info : ElemInfo)
    (s : Supply σ) : Option (Nat × Option α) × Option (Ret VErr Unit) :=
  match held, choice info.name.expanded with
  | none, none => (none, none)
  | none, some i =>
    match vs[i]? with
    | none => (none, some .panic)
    | some v =>
      match v.payload with
      | none => (some (i, none), some (.ok ()))
      | some impl =>
        match give s (impl.init info) with
        | .ok p => (some (i, some p), some (.ok ()))
        | .err e => (none, some (.err e))
        | .panic => (none, some .panic)
  | some (i, p), none => (some (i, p), some (.ok ()))
  | some (i, p), some j =>
    match vs[i]? with
    | none => (some (i, p), some .panic)
    | some v =>
      if i = j then
        match v.payload, p with
        | some impl, some p => (some (i, some (give s (impl.update p info)).1), some (give s (impl.update p info)).2)
        | _, _ => (some (i, p), some (.ok ()))
      else (some (i, p), some (.err (.wrap (.unexpectedElement info.name.expanded v.name.expanded))))

/-- What an enum's visitor holds after some calls. -/
def heldBy {σ α : Type} (choice : EName → Option Nat) (vs : List (OVariant σ α)) :
    Option (Nat × Option α) → List (Call σ) → Option (Nat × Option α)
  | c, [] => c
  | c, .elem info s :: cs => heldBy choice vs (onChildBy choice vs c info s).1 cs
  | c, _ :: cs => heldBy choice vs c cs

/-- A name stands for a variant that has it, if for any; and if the table is one `find` can search, for one whenever there is one. -/
structure ChoosesVariant {σ α : Type} (vs : List (OVariant σ α)) (choice : EName → Option Nat) : Prop where
  named : ∀ n i, choice n = some i → ∃ v, vs[i]? = some v ∧ v.name.expanded = n
  whenever : NoneFirst (vs.map OVariant.name) → ∀ v ∈ vs, choice v.name.expanded ≠ none

end SX.Spec.Clash
