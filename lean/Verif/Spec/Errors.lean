import Verif.Spec.Tree

/-
Where errors come from, and which changes to a document are invisible.
-/
namespace SX.Spec

/-- Passes on the error of the read it continues, unchanged, and makes up no other `Propagate` error. -/
def Action.Propagating {σ ρ : Type} (gives : ρ → VErr → Prop) : Action σ ρ → Prop
  | .done r => ∀ e, ¬ gives r (.propagate e)
  | .readString k => (∀ e, gives (k (.error e)) e) ∧ ∀ s e, ¬ gives (k (.ok s)) (.propagate e)
  | .readTo _ k => (∀ sub e, gives (k sub (.error e)) e) ∧ ∀ sub r e, ¬ gives (k sub (.ok r)) (.propagate e)

/-- A visitor that passes on errors of children unchanged; its own errors are plain (`Wrap`). -/
structure Propagating {σ : Type} (V : Visitor σ) : Prop where
  attr : ∀ v n s v' e, V.onAttr v n s ≠ .ok (v', .error (.propagate e))
  elem : ∀ v i, Action.Propagating (fun r e => ∃ v', r = .ok (v', .error e)) (V.onElem v i)

def DeserPropagating {σ α : Type} (D : Deser σ α) : Prop :=
  ∀ i, Action.Propagating (fun r e => r = .ok (.error e)) (D i)

/-- `AttrFails V l v e`: of the attributes `l`, the first one that is rejected is rejected with `e`. -/
inductive AttrFails {σ : Type} (V : Visitor σ) : List XAttr → σ → DErr → Prop
  | here {a l v v' e} : V.onAttr v a.name.expanded a.value = .ok (v', .error (.wrap e)) → AttrFails V (a :: l) v e
  | later {a l v v' e} : V.onAttr v a.name.expanded a.value = .ok (v', .ok ()) → AttrFails V l v' e →
      AttrFails V (a :: l) v e

/-- `AttrsTo V l v v'`: all attributes are accepted, taking the visitor from `v` to `v'`. -/
inductive AttrsTo {σ : Type} (V : Visitor σ) : List XAttr → σ → σ → Prop
  | nil {v} : AttrsTo V [] v v
  | cons {a l v v' v''} : V.onAttr v a.name.expanded a.value = .ok (v', .ok ()) → AttrsTo V l v' v'' →
      AttrsTo V (a :: l) v v''

/-- Nodes followed by nodes. -/
def Forest.append : Forest → Forest → Forest
  | .nil, g => g
  | .elem n a ns pos ch ep rest, g => .elem n a ns pos ch ep (rest.append g)
  | .chars s cd pos rest, g => .chars s cd pos (rest.append g)
  | .misc m pos rest, g => .misc m pos (rest.append g)

/-- `RaisedIn V path f v E`: in the content `f` of the element with path `path`, presented to the visitor in
state `v`, an error is raised, namely `E`.  Each rule but the last two says what the error is at its
origin; `inside` says that enclosing elements do not change it. -/
inductive RaisedIn {σ : Type} (V : Visitor σ) : List StackElem → Forest → σ → Error → Prop
  /-- character data rejected: position of the text, stack of the element -/
  | text {path s cd pos rest v v' e} : V.onChars v s pos = .ok (v', .error e) →
      RaisedIn V path (.chars s cd pos rest) v { kind := .deserializer e, stack := path, pos }
  /-- child rejected without reading it -/
  | rejected {path n a ns pos ch ep rest v v' e} :
      V.onElem v { name := n, ns, depth := path.length + 1 } = .done (.ok (v', .error (.wrap e))) →
      RaisedIn V path (.elem n a ns pos ch ep rest) v
        { kind := .deserializer e, stack := path ++ [{ name := n, pos }], pos }
  /-- child rejected after its text was read (to its end tag) -/
  | badText {path n a ns pos ch ep rest v k v' e} :
      V.onElem v { name := n, ns, depth := path.length + 1 } = .readString k → ch.firstElem = none →
      k (.ok ch.text) = .ok (v', .error (.wrap e)) →
      RaisedIn V path (.elem n a ns pos ch ep rest) v
        { kind := .deserializer e, stack := path ++ [{ name := n, pos }], pos }
  /-- element inside a child that is read as text -/
  | elemInText {path n a ns pos ch ep rest v k c} :
      V.onElem v { name := n, ns, depth := path.length + 1 } = .readString k → ch.firstElem = some c →
      RaisedIn V path (.elem n a ns pos ch ep rest) v
        { kind := .msg (.elementInString c.name), stack := path ++ [{ name := n, pos }] ++ [c], pos := c.pos }
  /-- attribute of a child rejected -/
  | attr {path n a ns pos ch ep rest v sub k e} :
      V.onElem v { name := n, ns, depth := path.length + 1 } = .readTo sub k → AttrFails V a sub e →
      RaisedIn V path (.elem n a ns pos ch ep rest) v
        { kind := .deserializer e, stack := path ++ [{ name := n, pos }], pos }
  /-- child rejected after it was read completely (e.g. a field is missing) -/
  | finish {path n a ns pos ch ep rest v sub k sub' sub'' v' e} :
      V.onElem v { name := n, ns, depth := path.length + 1 } = .readTo sub k → AttrsTo V a sub sub' →
      content V (path ++ [{ name := n, pos }]) ch sub' = .ok (sub'', .ok ()) →
      k sub'' (.ok (n, ns, ep)) = .ok (v', .error (.wrap e)) →
      RaisedIn V path (.elem n a ns pos ch ep rest) v
        { kind := .deserializer e, stack := path ++ [{ name := n, pos }], pos }
  /-- raised inside a child: the same error -/
  | inside {path n a ns pos ch ep rest v sub k sub' E} :
      V.onElem v { name := n, ns, depth := path.length + 1 } = .readTo sub k → AttrsTo V a sub sub' →
      RaisedIn V (path ++ [{ name := n, pos }]) ch sub' E →
      RaisedIn V path (.elem n a ns pos ch ep rest) v E
  /-- raised later, after some nodes `pre` have been accepted -/
  | later {path pre rest v v' E} : content V path pre v = .ok (v', .ok ()) → RaisedIn V path rest v' E →
      RaisedIn V path (pre.append rest) v E

/-- The root element: as for other elements, except that an error of the implementation itself is given the
position the reader has reached. -/
inductive RaisedAtRoot {σ α : Type} (V : Visitor σ) (D : Deser σ α) (x : Elem) : Error → Prop
  | rejected {e} : D { name := x.name, ns := x.ns, depth := 1 } = .done (.ok (.error (.wrap e))) →
      RaisedAtRoot V D x { kind := .deserializer e, stack := [{ name := x.name, pos := x.pos }], pos := x.pos }
  | badText {k e} : D { name := x.name, ns := x.ns, depth := 1 } = .readString k → x.children.firstElem = none →
      k (.ok x.children.text) = .ok (.error (.wrap e)) →
      RaisedAtRoot V D x { kind := .deserializer e, stack := [{ name := x.name, pos := x.pos }], pos := x.endPos }
  | elemInText {k c} : D { name := x.name, ns := x.ns, depth := 1 } = .readString k → x.children.firstElem = some c →
      RaisedAtRoot V D x
        { kind := .msg (.elementInString c.name), stack := [{ name := x.name, pos := x.pos }, c], pos := c.pos }
  | attr {sub k e} : D { name := x.name, ns := x.ns, depth := 1 } = .readTo sub k → AttrFails V x.attrs sub e →
      RaisedAtRoot V D x { kind := .deserializer e, stack := [{ name := x.name, pos := x.pos }], pos := x.pos }
  | finish {sub k sub' sub'' e} : D { name := x.name, ns := x.ns, depth := 1 } = .readTo sub k →
      AttrsTo V x.attrs sub sub' →
      content V [{ name := x.name, pos := x.pos }] x.children sub' = .ok (sub'', .ok ()) →
      k sub'' (.ok (x.name, x.ns, x.endPos)) = .ok (.error (.wrap e)) →
      RaisedAtRoot V D x { kind := .deserializer e, stack := [{ name := x.name, pos := x.pos }], pos := x.endPos }
  | inside {sub k sub' E} : D { name := x.name, ns := x.ns, depth := 1 } = .readTo sub k →
      AttrsTo V x.attrs sub sub' → RaisedIn V [{ name := x.name, pos := x.pos }] x.children sub' E →
      RaisedAtRoot V D x E

/-- `p` is the list of elements on the way from (outside) `f` down to some element in it. -/
def PathIn : Forest → List StackElem → Prop
  | _, [] => True
  | .nil, _ :: _ => False
  | .elem n _ _ pos ch _ rest, x :: p => (x = { name := n, pos } ∧ PathIn ch p) ∨ PathIn rest (x :: p)
  | .chars _ _ _ rest, x :: p => PathIn rest (x :: p)
  | .misc _ _ rest, x :: p => PathIn rest (x :: p)

/-- `p` is the list of elements from the root down to some element. -/
def IsPath (r : Elem) (p : List StackElem) : Prop :=
  ∃ q, p = { name := r.name, pos := r.pos } :: q ∧ PathIn r.children q

/-- Without comments, processing instructions and whitespace events. -/
def Forest.strip : Forest → Forest
  | .nil => .nil
  | .elem n a ns pos ch ep rest => .elem n a ns pos ch.strip ep rest.strip
  | .chars s cd pos rest => .chars s cd pos rest.strip
  | .misc _ _ rest => rest.strip

def Elem.strip (x : Elem) : Elem := { x with children := x.children.strip }

/-! Positions are not content. -/

def StackElem.erase (x : StackElem) : StackElem := { x with pos := { row := 0, col := 0 } }

def Error.erase (e : Error) : Error :=
  { kind := e.kind, stack := e.stack.map StackElem.erase, pos := { row := 0, col := 0 } }

def VErr.erase : VErr → VErr
  | .propagate e => .propagate (Error.erase e)
  | .wrap e => .wrap e

/-- The same outcome, with the positions in the error erased. -/
def eraseV {σ : Type} : Except Fault (σ × Except VErr Unit) → Except Fault (σ × Except VErr Unit)
  | .ok (v, .error e) => .ok (v, .error (VErr.erase e))
  | r => r

def eraseD {α : Type} : Except Fault (Except VErr α) → Except Fault (Except VErr α)
  | .ok (.error e) => .ok (.error (VErr.erase e))
  | r => r

def eraseRead {α : Type} : Except Fault (Except Error α) → Except Fault (Except Error α)
  | .ok (.error e) => .ok (.error (Error.erase e))
  | r => r

/-- Without comments, processing instructions and whitespace events, positions, and the distinction
between CDATA sections and other character data. -/
def Forest.norm : Forest → Forest
  | .nil => .nil
  | .elem n a ns _ ch _ rest => .elem n a ns { row := 0, col := 0 } ch.norm { row := 0, col := 0 } rest.norm
  | .chars s _ _ rest => .chars s false { row := 0, col := 0 } rest.norm
  | .misc _ _ rest => rest.norm

def Elem.norm (x : Elem) : Elem :=
  { x with pos := { row := 0, col := 0 }, children := x.children.norm, endPos := { row := 0, col := 0 } }

/-- An implementation whose behaviour does not depend on positions in the document. -/
def Action.Oblivious {σ ρ : Type} (er : ρ → ρ) : Action σ ρ → Prop
  | .done _ => True
  | .readString k => ∀ e, er (k (.error e)) = er (k (.error (VErr.erase e)))
  | .readTo _ k => (∀ sub e, er (k sub (.error e)) = er (k sub (.error (VErr.erase e)))) ∧
      ∀ sub n ns p p', er (k sub (.ok (n, ns, p))) = er (k sub (.ok (n, ns, p')))

structure Oblivious {σ : Type} (V : Visitor σ) : Prop where
  chars : ∀ v s p p', V.onChars v s p = V.onChars v s p'
  elem : ∀ v i, Action.Oblivious eraseV (V.onElem v i)

def DeserOblivious {σ α : Type} (D : Deser σ α) : Prop := ∀ i, Action.Oblivious eraseD (D i)

end SX.Spec
