import Verif.Spec.DeriveForms

/-
When two elements have the same content as far as the declarations care: undeclared content, comments, positions and prefixes
aside, and with the children in any order as long as children with the same name keep theirs.
-/
namespace SX.Spec

/-- Both have some, or none; if the variant has a payload, equally many. -/
def SameCount : Option Slot → List Elem → List Elem → Prop
  | none, l, l' => l = [] ↔ l' = []
  | some _, l, l' => l.length = l'.length

/-- The children that are not for the struct's own fields but known to one of its flattened fields. -/
def flatKids (env : Env) (fields : List Field) (x : Elem) : List Elem :=
  x.children.children.filter fun c => !declaredElem fields c.name.expanded &&
    (flatTypes fields).any fun e => (env.enm e).variants.any fun w => w.name.expanded == c.name.expanded

/-- Same content as values of a type. -/
inductive SameContent (env : Env) : Ty → Elem → Elem → Prop where
  /-- The same text. -/
  | text {t : TextTy} {x y : Elem} (hx : x.children.children = []) (hy : y.children.children = [])
      (ht : x.children.text = y.children.text) : SameContent env (.text t) x y
  /-- Not text: both have child elements. -/
  | notText {t : TextTy} {x y : Elem} (hx : x.children.children ≠ []) (hy : y.children.children ≠ []) : SameContent env (.text t) x y
  /-- The same children for each variant. -/
  | enm {i : Nat} {x y : Elem}
      (counts : ∀ w ∈ (env.enm i).variants,
        SameCount w.slot (x.children.childrenNamed w.name.expanded) (y.children.childrenNamed w.name.expanded))
      (items : ∀ w s (p : Nat) u v, w ∈ (env.enm i).variants → w.slot = some s → (x.children.childrenNamed w.name.expanded)[p]? = some u →
        (y.children.childrenNamed w.name.expanded)[p]? = some v → SameContent env s.ty u v) : SameContent env (.enm i) x y
  /-- The same attributes and the same children for each field and each variant of a flattened field, if there is but one. -/
  | single {i : Nat} {x y : Elem} (one : (flatTypes (env.strct i).fields).length ≤ 1)
      (attrs : ∀ f o t, f ∈ (env.strct i).fields → f.kind = .attribute o t →
        (attrsNamed f.name.expanded x.attrs).map XAttr.value = (attrsNamed f.name.expanded y.attrs).map XAttr.value)
      (counts : ∀ f s, f ∈ (env.strct i).fields → f.kind = .element s →
        (x.children.childrenNamed f.name.expanded).length = (y.children.childrenNamed f.name.expanded).length)
      (items : ∀ f s (p : Nat) u v, f ∈ (env.strct i).fields → f.kind = .element s → (x.children.childrenNamed f.name.expanded)[p]? = some u →
        (y.children.childrenNamed f.name.expanded)[p]? = some v → SameContent env s.ty u v)
      (flatCounts : ∀ e w, e ∈ flatTypes (env.strct i).fields → w ∈ (env.enm e).variants →
        declaredElem (env.strct i).fields w.name.expanded = false →
        SameCount w.slot (x.children.childrenNamed w.name.expanded) (y.children.childrenNamed w.name.expanded))
      (flatItems : ∀ e w s (p : Nat) u v, e ∈ flatTypes (env.strct i).fields → w ∈ (env.enm e).variants →
        declaredElem (env.strct i).fields w.name.expanded = false → w.slot = some s →
        (x.children.childrenNamed w.name.expanded)[p]? = some u → (y.children.childrenNamed w.name.expanded)[p]? = some v →
        SameContent env s.ty u v) : SameContent env (.strct i) x y
  /-- With several flattened fields also the order of their children is the same. -/
  | several {i : Nat} {x y : Elem}
      (attrs : ∀ f o t, f ∈ (env.strct i).fields → f.kind = .attribute o t →
        (attrsNamed f.name.expanded x.attrs).map XAttr.value = (attrsNamed f.name.expanded y.attrs).map XAttr.value)
      (counts : ∀ f s, f ∈ (env.strct i).fields → f.kind = .element s →
        (x.children.childrenNamed f.name.expanded).length = (y.children.childrenNamed f.name.expanded).length)
      (items : ∀ f s (p : Nat) u v, f ∈ (env.strct i).fields → f.kind = .element s → (x.children.childrenNamed f.name.expanded)[p]? = some u →
        (y.children.childrenNamed f.name.expanded)[p]? = some v → SameContent env s.ty u v)
      (names : (flatKids env (env.strct i).fields x).map (·.name.expanded) = (flatKids env (env.strct i).fields y).map (·.name.expanded))
      (flatItems : ∀ e w s (p : Nat) u v, e ∈ flatTypes (env.strct i).fields → w ∈ (env.enm e).variants → w.slot = some s →
        (flatKids env (env.strct i).fields x)[p]? = some u → (flatKids env (env.strct i).fields y)[p]? = some v →
        u.name.expanded = w.name.expanded → SameContent env s.ty u v) : SameContent env (.strct i) x y

/-- The same attributes and children in another order, at every depth, with the same text where there are no child elements;
attributes and children with the same name keep their order. -/
inductive Shuffled : Elem → Elem → Prop where
  | mk {x y : Elem} (attrs : ∀ n, (attrsNamed n x.attrs).map XAttr.value = (attrsNamed n y.attrs).map XAttr.value)
      (text : x.children.children = [] → x.children.text = y.children.text)
      (counts : ∀ n, (x.children.childrenNamed n).length = (y.children.childrenNamed n).length)
      (items : ∀ n (p : Nat) u v, (x.children.childrenNamed n)[p]? = some u → (y.children.childrenNamed n)[p]? = some v → Shuffled u v) :
      Shuffled x y

end SX.Spec
