import Verif.Model.Reader

/-
What a conforming XML parser may report: properly nested events, possibly cut off by an error at any
point; the end of the document only after the root element has ended.
-/
namespace SX.Spec

/-- The events may follow while the elements `o` (innermost first) are open.  Once the root element has
ended nothing more is asked. -/
def Nested : List QName → List (XEvent × Pos) → Final → Prop
  | [], _, _ => True
  | _ :: _, [], final => ∃ m p, final = .err m p
  | n :: o, (e, _) :: l, final =>
    match e with
    | .startElement m _ _ => Nested (m :: n :: o) l final
    | .endElement m => m = n ∧ Nested o l final
    | .characters _ => Nested (n :: o) l final
    | .cdata _ => Nested (n :: o) l final
    | .misc _ => Nested (n :: o) l final
    | .startDocument => False

/-- The events may follow before the root element. -/
def Prolog : List (XEvent × Pos) → Final → Prop
  | [], final => ∃ m p, final = .err m p
  | (.misc _, _) :: l, final => Prolog l final
  | (.startElement n _ _, _) :: l, final => Nested [n] l final
  | _, _ => False

/-- The events may be reported for some input. -/
def Conforming (i : Input) : Prop :=
  match i.items with
  | [] => ∃ m p, i.final = .err m p
  | (.startDocument, _) :: l => Prolog l i.final
  | _ => False

/-- A visitor whose own code never panics (or worse). -/
def Action.Total {σ ρ : Type} (good : ρ → Prop) : Action σ ρ → Prop
  | .done r => good r
  | .readString k => ∀ r, good (k r)
  | .readTo _ k => ∀ sub r, good (k sub r)

structure Total {σ : Type} (V : Visitor σ) : Prop where
  attr : ∀ v n s, ∃ r, V.onAttr v n s = .ok r
  chars : ∀ v s p, ∃ r, V.onChars v s p = .ok r
  elem : ∀ v i, Action.Total (fun r => ∃ x, r = .ok x) (V.onElem v i)

def DeserTotal {σ α : Type} (D : Deser σ α) : Prop := ∀ i, Action.Total (fun r => ∃ x, r = .ok x) (D i)

/-- The same, for visitors whose state stays within some invariant `I`. -/
def Action.TotalOn {σ ρ : Type} (I : σ → Prop) (good : ρ → Prop) : Action σ ρ → Prop
  | .done r => good r
  | .readString k => ∀ r, good (k r)
  | .readTo sub k => I sub ∧ ∀ sub r, I sub → good (k sub r)

structure TotalOn {σ : Type} (I : σ → Prop) (V : Visitor σ) : Prop where
  attr : ∀ v n s, I v → ∃ v' r, V.onAttr v n s = .ok (v', r) ∧ I v'
  chars : ∀ v s p, I v → ∃ v' r, V.onChars v s p = .ok (v', r) ∧ I v'
  elem : ∀ v i, I v → Action.TotalOn I (fun r => ∃ v' x, r = .ok (v', x) ∧ I v') (V.onElem v i)

def DeserTotalOn {σ α : Type} (I : σ → Prop) (D : Deser σ α) : Prop :=
  ∀ i, Action.TotalOn I (fun r => ∃ x, r = .ok x) (D i)

end SX.Spec
