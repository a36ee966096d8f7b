import Verif.Model.Reader

/-
Documents as element trees, and what it means to let a visitor traverse one.  Nothing here knows about
event streams, depths or skipping.
-/
namespace SX.Spec

/-- The content of an element: a sequence of child elements, character data, and other nodes. -/
inductive Forest where
  | nil
  | elem (name : QName) (attrs : List XAttr) (ns : NsMap) (pos : Pos) (children : Forest) (endPos : Pos)
      (rest : Forest)
  | chars (s : String) (cdata : Bool) (pos : Pos) (rest : Forest)
  | misc (m : Misc) (pos : Pos) (rest : Forest)
  deriving DecidableEq, Repr

/-- The events of a sequence of nodes, in document order. -/
def Forest.events : Forest → List (XEvent × Pos)
  | .nil => []
  | .elem name attrs ns pos children endPos rest =>
    (.startElement name attrs ns, pos) :: (children.events ++ (.endElement name, endPos) :: rest.events)
  | .chars s cdata pos rest => (if cdata then .cdata s else .characters s, pos) :: rest.events
  | .misc m pos rest => (.misc m, pos) :: rest.events

/-- An element with everything in it. -/
structure Elem where
  name : QName
  attrs : List XAttr
  ns : NsMap
  pos : Pos
  children : Forest
  endPos : Pos
  deriving DecidableEq, Repr

/-- A node allowed outside the root element: comment or processing instruction. -/
def outsideOk : Misc → Prop
  | .comment _ => True
  | .pi _ _ => True
  | .whitespace _ => False

/-- A document. -/
structure Doc where
  startPos : Pos
  prolog : List (Misc × Pos)
  root : Elem
  epilog : List (Misc × Pos)
  eofPos : Pos
  epilogOk : ∀ m ∈ epilog, outsideOk m.1

def miscEvents (l : List (Misc × Pos)) : List (XEvent × Pos) := l.map fun m => (.misc m.1, m.2)

/-- What the XML parser reports for a document. -/
def Doc.input (d : Doc) : Input :=
  { items := (.startDocument, d.startPos) :: (miscEvents d.prolog ++
      (.startElement d.root.name d.root.attrs d.root.ns, d.root.pos) ::
      (d.root.children.events ++ (.endElement d.root.name, d.root.endPos) :: miscEvents d.epilog))
    final := .eof
    finalPos := d.eofPos }

/-- The character data directly inside, in document order. -/
def Forest.text : Forest → String
  | .nil => ""
  | .elem _ _ _ _ _ _ rest => rest.text
  | .chars s _ _ rest => s ++ rest.text
  | .misc _ _ rest => rest.text

/-- The first child element. -/
def Forest.firstElem : Forest → Option StackElem
  | .nil => none
  | .elem name _ _ pos _ _ _ => some { name, pos }
  | .chars _ _ _ rest => rest.firstElem
  | .misc _ _ rest => rest.firstElem

/-- Where reading stopped: the elements that were open (or just ended), and the position. -/
structure Stop where
  path : List StackElem
  pos : Pos
  deriving DecidableEq, Repr

/-- An element read as text: its character data, or an error if it has a child element. -/
def asText (here : List StackElem) (children : Forest) (endPos : Pos) : Except VErr String × Stop :=
  match children.firstElem with
  | none => (.ok children.text, { path := here, pos := endPos })
  | some c => (.error (.propagate { kind := .msg (.elementInString c.name), stack := here ++ [c], pos := c.pos }),
      { path := here ++ [c], pos := c.pos })

/-- Attributes are presented in order until one is rejected. -/
def attributes {σ : Type} (V : Visitor σ) (here : List StackElem) (pos : Pos) :
    List XAttr → σ → Except Fault (σ × Except Error Unit)
  | [], v => .ok (v, .ok ())
  | a :: as, v =>
    match V.onAttr v a.name.expanded a.value with
    | .error f => .error f
    | .ok (v, .error (.propagate e)) => .ok (v, .error e)
    | .ok (v, .error (.wrap e)) => .ok (v, .error { kind := .deserializer e, stack := here, pos })
    | .ok (v, .ok ()) => attributes V here pos as v

/-- The nodes of an element (whose path from the root is `path`) are presented in order, until one is
rejected. -/
def content {σ : Type} (V : Visitor σ) (path : List StackElem) :
    Forest → σ → Except Fault (σ × Except (Error × Stop) Unit)
  | .nil, v => .ok (v, .ok ())
  | .misc _ _ rest, v => content V path rest v
  | .chars s _ pos rest, v =>
    match V.onChars v s pos with
    | .error f => .error f
    | .ok (v, .error e) =>
      .ok (v, .error ({ kind := .deserializer e, stack := path, pos }, { path, pos }))
    | .ok (v, .ok ()) => content V path rest v
  | .elem name attrs ns pos children endPos rest, v =>
    let here := path ++ [{ name, pos }]
    let r : Except Fault (Except Fault (σ × Except VErr Unit) × Stop) :=
      match V.onElem v { name, ns, depth := here.length } with
      | .done r => .ok (r, { path := here, pos })
      | .readString k => .ok (k (asText here children endPos).1, (asText here children endPos).2)
      | .readTo sub k =>
        match attributes V here pos attrs sub with
        | .error f => .error f
        | .ok (sub, .error e) => .ok (k sub (.error (.propagate e)), { path := here, pos })
        | .ok (sub, .ok ()) =>
          match content V here children sub with
          | .error f => .error f
          | .ok (sub, .error (e, stop)) => .ok (k sub (.error (.propagate e)), stop)
          | .ok (sub, .ok ()) => .ok (k sub (.ok (name, ns, endPos)), { path := here, pos := endPos })
    match r with
    | .error f => .error f
    | .ok (.error f, _) => .error f
    | .ok (.ok (v, .error (.propagate e)), stop) => .ok (v, .error (e, stop))
    | .ok (.ok (v, .error (.wrap e)), stop) =>
      .ok (v, .error ({ kind := .deserializer e, stack := stop.path, pos }, stop))
    | .ok (.ok (v, .ok ()), _) => content V path rest v

/-- An implementation given a whole element. -/
def deser {σ α : Type} (V : Visitor σ) (D : Deser σ α) (path : List StackElem) (x : Elem) :
    Except Fault (Except VErr α × Stop) :=
  let here := path ++ [{ name := x.name, pos := x.pos }]
  let r : Except Fault (Except Fault (Except VErr α) × Stop) :=
    match D { name := x.name, ns := x.ns, depth := here.length } with
    | .done r => .ok (r, { path := here, pos := x.pos })
    | .readString k => .ok (k (asText here x.children x.endPos).1, (asText here x.children x.endPos).2)
    | .readTo sub k =>
      match attributes V here x.pos x.attrs sub with
      | .error f => .error f
      | .ok (sub, .error e) => .ok (k sub (.error (.propagate e)), { path := here, pos := x.pos })
      | .ok (sub, .ok ()) =>
        match content V here x.children sub with
        | .error f => .error f
        | .ok (sub, .error (e, stop)) => .ok (k sub (.error (.propagate e)), stop)
        | .ok (sub, .ok ()) => .ok (k sub (.ok (x.name, x.ns, x.endPos)), { path := here, pos := x.endPos })
  match r with
  | .error f => .error f
  | .ok (.error f, _) => .error f
  | .ok (.ok r, stop) => .ok (r, stop)

/-- Reading a document is giving its root element to the implementation. -/
def readDoc {σ α : Type} (V : Visitor σ) (D : Deser σ α) (d : Doc) : Except Fault (Except Error α) :=
  match deser V D [] d.root with
  | .error f => .error f
  | .ok (.ok a, _) => .ok (.ok a)
  | .ok (.error (.propagate e), _) => .ok (.error e)
  | .ok (.error (.wrap e), stop) =>
    .ok (.error { kind := .deserializer e, stack := stop.path, pos := stop.pos })

/-- A continuation that does not turn an error of the read it continues into a success. -/
def Action.NoSwallow {σ ρ : Type} (bad : ρ → Prop) : Action σ ρ → Prop
  | .done _ => True
  | .readString k => ∀ e, bad (k (.error e))
  | .readTo _ k => ∀ sub e, bad (k sub (.error e))

/-- A visitor that, when reading a child fails, fails itself (with whatever error). -/
def NoSwallow {σ : Type} (V : Visitor σ) : Prop :=
  ∀ v info, Action.NoSwallow (fun r => ∀ v', r ≠ .ok (v', .ok ())) (V.onElem v info)

/-- The same for an implementation. -/
def DeserNoSwallow {σ α : Type} (D : Deser σ α) : Prop :=
  ∀ info, Action.NoSwallow (fun r => ∀ a, r ≠ .ok (.ok a)) (D info)

end SX.Spec
