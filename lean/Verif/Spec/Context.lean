import Verif.Spec.Tree

/-
What an error says about where it happened.
-/
namespace SX.Spec

/-- What an event does to the elements that are open, outermost first. -/
def opened (l : List StackElem) : XEvent × Pos → List StackElem
  | (.startElement n _ _, p) => l ++ [{ name := n, pos := p }]
  | (.endElement _, _) => l.dropLast
  | _ => l

/-- The elements open after some events, each with the position of its start. -/
def openedBy (c : List (XEvent × Pos)) : List StackElem := c.foldl opened []

/-- The error has the elements that were open at some time during reading as its stack, and as its position that of the event that it is about.
An error of the parser has the elements open at the end of what the parser reported, and the parser's position; an element within text, the
elements down to that element and its position; an error of an implementation, the elements open after some events, and the position of one of these
events or of the next one; errors outside the root have no elements, and nothing is open. -/
inductive Occurred (i : Input) : Error → Prop where
  | parser {m : XmlErr} {p : Pos} (h : i.final = .err m p) : Occurred i { kind := .xml m, stack := openedBy i.items, pos := p }
  | inText {c rest : List (XEvent × Pos)} {n : QName} {as : List XAttr} {ns : NsMap} {p : Pos} (h : i.items = c ++ (.startElement n as ns, p) :: rest) :
      Occurred i { kind := .msg (.elementInString n), stack := openedBy c ++ [{ name := n, pos := p }], pos := p }
  | raised {c rest : List (XEvent × Pos)} {e : DErr} {p : Pos} (h : i.items = c ++ rest)
      (pos : p ∈ (i.items.take (c.length + 1)).map Prod.snd ∨ rest = [] ∧ p = i.finalPos) :
      Occurred i { kind := .deserializer e, stack := openedBy c, pos := p }
  | outside {c rest : List (XEvent × Pos)} {m : Msg} {x : XEvent} {p : Pos} (h : i.items = c ++ (x, p) :: rest) (none : openedBy c = []) :
      Occurred i { kind := .msg m, stack := [], pos := p }
  | nothing {m : Msg} (h : i.items = []) : Occurred i { kind := .msg m, stack := [], pos := i.finalPos }

/-- What reading a child returns: if an error, then one with context, of which `P` is true. -/
def Got {α : Type} (P : Error → Prop) (r : Except VErr α) : Prop := ∀ e, r = .error e → ∃ E, e = .propagate E ∧ P E

/-- What an action returns is `good`, if the errors it gets are errors of which `P` is true, and visitors keep `I`. -/
def Action.Borrows {σ ρ : Type} (P : Error → Prop) (I : σ → Prop) (good : ρ → Prop) : Action σ ρ → Prop
  | .done r => good r
  | .readString k => ∀ r, Got P r → good (k r)
  | .readTo sub k => I sub ∧ ∀ sub r, I sub → Got P r → good (k sub r)

/-- All errors with context that the visitor returns are errors of which `P` is true, if those that it gets are.  `I` is true of states that hold no others. -/
structure Borrows {σ : Type} (P : Error → Prop) (I : σ → Prop) (V : Visitor σ) : Prop where
  attr : ∀ v n s v' r, I v → V.onAttr v n s = .ok (v', r) → I v' ∧ ∀ E, r = .error (.propagate E) → P E
  chars : ∀ v s p v' r, I v → V.onChars v s p = .ok (v', r) → I v'
  elem : ∀ v i, I v → Action.Borrows P I (fun r => ∀ v' x, r = .ok (v', x) → I v' ∧ ∀ E, x = .error (.propagate E) → P E) (V.onElem v i)

/-- Visitors and implementation have their errors with context from reading: nobody else can make them (`de/mod.rs:152,162-188` are private).  They may keep
them, and return them later instead of others. -/
def MakesNoErrors {σ α : Type} (V : Visitor σ) (D : Deser σ α) : Prop :=
  ∀ P : Error → Prop, ∃ I, Borrows P I V ∧ ∀ i, Action.Borrows P I (fun r => ∀ E, r = .ok (.error (.propagate E)) → P E) (D i)

end SX.Spec
