import Verif.Spec.Expanded

/-
Any element, with all that a document says about it.  Nothing here knows about types, readers or writers.
-/
namespace SX.Spec

/-- An element with everything in it, by expanded names. -/
structure AnyElement where
  name : EName
  attrs : List (EName × String)
  content : EForest
  deriving DecidableEq, Repr

/-- The content that a parser reports: elements and text in order; comments, processing instructions and white space events are left out. -/
def Forest.whole : Forest → EForest
  | .nil => .nil
  | .elem name attrs _ _ children _ rest => .elem name.expanded (attrs.map fun a => (a.name.expanded, a.value)) children.whole rest.whole
  | .chars s _ _ rest => .chars s rest.whole
  | .misc _ _ rest => rest.whole

/-- The root element that a parser reports. -/
def Doc.whole (d : Doc) : AnyElement :=
  { name := d.root.name.expanded, attrs := d.root.attrs.map fun a => (a.name.expanded, a.value), content := d.root.children.whole }

/-- No two attributes of an element have the same name, at any depth. -/
def EForest.AttrsOnce : EForest → Prop
  | .nil => True
  | .elem _ attrs children rest => (attrs.map Prod.fst).Nodup ∧ children.AttrsOnce ∧ rest.AttrsOnce
  | .chars _ rest => rest.AttrsOnce

/-- The same for an element. -/
def AnyElement.AttrsOnce (e : AnyElement) : Prop := (e.attrs.map Prod.fst).Nodup ∧ e.content.AttrsOnce

/-- Without text that is blank, which readers do not get to see. -/
def EForest.visible : EForest → EForest
  | .nil => .nil
  | .elem n attrs children rest => .elem n attrs children.visible rest.visible
  | .chars s rest => if Blank s then rest.visible else .chars s rest.visible

/-- The same for an element. -/
def AnyElement.visible (e : AnyElement) : AnyElement := { e with content := e.content.visible }

/-- The events of an element. -/
def AnyElement.events (e : AnyElement) : List EEvent := .start e.name e.attrs :: (e.content.events ++ [.stop])

/-- Attributes and content, of an element or left over of one. -/
abbrev Rest := List (EName × String) × EForest

open Classical in
/-- The attributes with other names, in order. -/
noncomputable def leftAttrs (P : EName → Prop) : List XAttr → List (EName × String)
  | [] => []
  | a :: as => if P a.name.expanded then leftAttrs P as else (a.name.expanded, a.value) :: leftAttrs P as

open Classical in
/-- All text, and the elements with other names with everything in them, in order. -/
noncomputable def Forest.left (Q : EName → Prop) : Forest → EForest
  | .nil => .nil
  | .elem name attrs _ _ children _ rest =>
    if Q name.expanded then rest.left Q
    else .elem name.expanded (attrs.map fun a => (a.name.expanded, a.value)) children.whole (rest.left Q)
  | .chars s _ _ rest => .chars s (rest.left Q)
  | .misc _ _ rest => rest.left Q

end SX.Spec
