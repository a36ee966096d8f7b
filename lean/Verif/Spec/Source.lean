import Verif.Spec.Macro
import Verif.Spec.DeriveSer

/-
What the fields of a struct in the source mean for the documents read and written.  Taken from the model: the syntax of declarations, and
the definitions the generated code works on.
-/
namespace SX.Spec

/-- The expanded name of a field in the source. -/
def SourceName (mapped : String → String → Prop) (f : DField) (n : EName) : Prop :=
  ∃ ns, NameNs mapped (attrItems f.attrs) ns ∧ LocalName f.ident (attrItems f.attrs) n.loc ∧ n.ns = ns.getD ""

/-- A field without any of the words for other modes. -/
def SaysElement (f : DField) : Prop := ∀ w ∈ ["attribute", "flatten", "text"], word w ∉ attrItems f.attrs

/-- What `default` in the source says. -/
def sourceDefault (f : DField) (v : Val) : Option Val := if word "default" ∈ attrItems f.attrs then some v else none

/-- What the generated code must work on, for a field in the source with a type. -/
structure FieldMeans (mapped : String → String → Prop) (ty : FieldTypes) (f : DField) (g : Field) : Prop where
  name : SourceName mapped f g.name.expanded
  element : SaysElement f → g.kind = .element ty.element
  «attribute» : word "attribute" ∈ attrItems f.attrs → g.kind = .attribute ty.attribute.1 ty.attribute.2
  flatten : word "flatten" ∈ attrItems f.attrs → g.kind = .flatten ty.flatten
  text : word "text" ∈ attrItems f.attrs → g.kind = .text ty.text
  default : g.default = sourceDefault f ty.default

/-- The child elements: names, attributes and contents. -/
def EForest.kids : EForest → List (EName × List (EName × String) × EForest)
  | .nil => []
  | .elem n a c rest => (n, a, c) :: rest.kids
  | .chars _ rest => rest.kids

end SX.Spec
