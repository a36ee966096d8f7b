import Verif.Spec.Prefixes
import Verif.Spec.DeriveSer

/-
Which prefixes are to be used, by the documentation (`static-xml/src/lib.rs:226-239`).
-/
namespace SX.Spec

/-- The prefix of a URI, among mappings: the first. -/
def prefixOf (scope : List (String × String)) (u : String) : Option String := (scope.find? fun x => x.2 == u).map Prod.fst

/-- The prefix a type wants for a URI.  `name`: of the element; `scope`: the mappings of its parent; `given`: the mappings of the type, then
those of its flattened fields. -/
def wanted (name : EName) (scope given : List (String × String)) (u : String) : Option String :=
  if u = name.ns ∧ (prefixOf scope u).isSome then prefixOf scope u else prefixOf given u

/-- The prefixes wanted are in no conflict: none is wanted for two URIs, and none is empty if there are attributes in the namespace. -/
def NoConflict (want : String → Option String) (attrs : List EName) : Prop :=
  (∀ u v p, want u = some p → want v = some p → u = v) ∧ ∀ a ∈ attrs, want a.ns ≠ some ""

/-- The mappings of the flattened fields of a struct. -/
def flatMappings (env : Env) (fields : List Field) : List (String × String) :=
  fields.flatMap fun f =>
    match f.kind with
    | .flatten e => (env.enm e).namespaces
    | _ => []

/-- The calls for a type with mappings `own`, attributes `attrs` and flattened fields with mappings `flat`. -/
def derivedCalls (own : List (String × String)) (attrs : List (EName × String)) (flat : List (String × String)) : List BCall :=
  own.map (fun m => .namespace m.1 m.2) ++ (attrs.map (fun a => .attribute a.1 a.2) ++ flat.map fun m => .namespace m.1 m.2)

/-! ### The documentation -/

/-- What an element's start tag was made from, and the mappings in force in the element. -/
structure Tag where
  name : EName
  /-- of the parent -/
  scope : List (String × String)
  /-- of the type -/
  own : List (String × String)
  /-- of the flattened fields -/
  flat : List (String × String)
  attrs : List EName
  /-- in force in the element -/
  result : List (String × String)

/-- `lib.rs:230-231`: "if the parent has already mapped the given URL with a different prefix, the parent's will be used." -/
def DocParent (t : Tag) : Prop := ∀ p q u, (p, u) ∈ t.own → (q, u) ∈ t.scope → (q, u) ∈ t.result

/-- `lib.rs:232-233`: "if a flattened field's namespace mappings conflict with its containing type, the containing type's mappings will be used."
Here: the type's mappings are in force, where nothing else conflicts with them. -/
def DocFlatten (t : Tag) : Prop :=
  (t.own.map Prod.fst).Nodup → (t.own.map Prod.snd).Nodup → t.scope = [] → (∀ u, ("", u) ∈ t.own → ∀ a ∈ t.attrs, a.ns ≠ u) →
    ∀ m ∈ t.own, m ∈ t.result

/-- `lib.rs:234-235`: "if a namespace is mapped both as the default and with a prefix used by an attribute, the prefixed form will always be
used."  -/
def DocDefault (t : Tag) : Prop :=
  ∀ p u, p ≠ "" → ("", u) ∈ t.own → (p, u) ∈ t.own → (∀ q, (q, u) ∈ t.own → q = "" ∨ q = p) → (∃ a ∈ t.attrs, a.ns = u) → t.scope = [] →
    t.flat = [] → (∀ q v, (q, v) ∈ t.own → v ≠ u → q ≠ p) → (p, u) ∈ t.result

end SX.Spec
