import Verif.Model.Reader

/-
What a reader can have learnt from the first events of an input alone (C68).
-/
namespace SX.Spec

/-- The elements open after the events, if `o` (outermost first) were open before them. -/
def openAfter : List StackElem → List (XEvent × Pos) → List StackElem
  | o, [] => o
  | o, (.startElement name _ _, pos) :: l => openAfter (o ++ [{ name, pos }]) l
  | o, (.endElement _, _) :: l => openAfter o.dropLast l
  | o, _ :: l => openAfter o l

/-- An implementation that, given an error, gives it back. -/
def Action.PassesOn {σ ρ : Type} (gives : ρ → VErr → Prop) : Action σ ρ → Prop
  | .done _ => True
  | .readString k => ∀ e, gives (k (.error e)) e
  | .readTo _ k => ∀ sub e, gives (k sub (.error e)) e

/-- A visitor that passes on the errors of children; of its own errors nothing is asked. -/
def PassesOn {σ : Type} (V : Visitor σ) : Prop :=
  ∀ v i, Action.PassesOn (fun r e => ∃ v', r = .ok (v', .error e)) (V.onElem v i)

def DeserPassesOn {σ α : Type} (D : Deser σ α) : Prop :=
  ∀ i, Action.PassesOn (fun r e => r = .ok (.error e)) (D i)

/-- The input of which the parser reports only the events `pre`, then an error. -/
def cutAt (pre : List (XEvent × Pos)) (m : XmlErr) (p finalPos : Pos) : Input :=
  { items := pre, final := .err m p, finalPos }

/-- The error reported if an input ends too early. -/
def tooEarly (pre : List (XEvent × Pos)) (m : XmlErr) (p : Pos) : Error :=
  { kind := .xml m, stack := openAfter [] pre, pos := p }

end SX.Spec
