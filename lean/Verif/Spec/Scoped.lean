import Verif.Spec.Given

/-
Elements in no namespace, exactly: with the mappings that are in force in each element of a document.
-/
namespace SX.Spec

/-- The mappings in force in an element, by the rules of C48.  `scope`: those of its parent; `calls`: what is asked of its builder.  Each URI asked
for gets a prefix, in ascending order of the URIs; the mappings of the parent stay whose URI and prefix nobody asked for. -/
def InForce (name : EName) (scope : List (String × String)) (calls : List BCall) (m : List (String × String)) : Prop :=
  ∃ reqs asg, Ascending (reqs.map Request.url) ∧
    (∀ r, r ∈ reqs ↔ requestOf (decide (r.url = name.ns)) (prefixOf scope r.url) (concerning r.url [] calls) = some (r.pfx, r.needs)) ∧
    Assigned [] reqs asg ∧ Ascending (m.map Prod.fst) ∧
    ∀ p u, (p, u) ∈ m ↔ (u, p) ∈ asg ∨
      ((p, u) ∈ scope ∧ requestOf (decide (u = name.ns)) (prefixOf scope u) (concerning u [] calls) = none ∧ ∀ v, (v, p) ∉ asg)

/-- What is asked of the builder of an element with this value: the mappings of its type, its attributes, and the mappings of flattened
fields. -/
def itemCalls (env : Env) : Option (Ty × Val) → List BCall
  | some (.strct i, .strct vs) =>
    derivedCalls (env.strct i).namespaces (structAttrs (env.strct i).fields vs) (flatMappings env (env.strct i).fields)
  | some (.enm i, _) => derivedCalls (env.enm i).namespaces [] []
  | _ => []

/-- The child elements of an element with this value. -/
def itemChildren (env : Env) : Option (Ty × Val) → List Item
  | some (.strct i, .strct vs) => structItems env (env.strct i).fields vs
  | some (.enm i, v) => variantItems (env.enm i) v
  | _ => []

/-- No element in no namespace has a default namespace among its own mappings.  `scope`: the mappings of the element around these. -/
inductive NoPlainDefault (env : Env) : List (String × String) → List Item → Prop where
  | nil {scope : List (String × String)} : NoPlainDefault env scope []
  | cons {scope m : List (String × String)} {n : EName} {x : Option (Ty × Val)} {l : List Item} (mappings : InForce n scope (itemCalls env x) m)
      (plain : n.ns = "" → ∀ u, ("", u) ∉ m) (children : NoPlainDefault env m (itemChildren env x)) (rest : NoPlainDefault env scope l) :
      NoPlainDefault env scope ({ name := n, value := x } :: l)

/-- No element in no namespace has a default namespace among its own mappings or those of an element around it.  `dflt`: is there a default
namespace around these? -/
inductive NoPlainWithin (env : Env) : Bool → List (String × String) → List Item → Prop where
  | nil {dflt : Bool} {scope : List (String × String)} : NoPlainWithin env dflt scope []
  | cons {dflt : Bool} {scope m : List (String × String)} {n : EName} {x : Option (Ty × Val)} {l : List Item}
      (mappings : InForce n scope (itemCalls env x) m) (plain : n.ns = "" → dflt = false ∧ ∀ u, ("", u) ∉ m)
      (children : NoPlainWithin env (dflt || m.any fun y => y.1 == "") m (itemChildren env x)) (rest : NoPlainWithin env dflt scope l) :
      NoPlainWithin env dflt scope ({ name := n, value := x } :: l)

end SX.Spec
