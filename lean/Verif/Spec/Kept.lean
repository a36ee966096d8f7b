import Verif.Spec.Reorder

/-
When two elements have the same declared content but for how it is written: which texts stand for a value, and whether a default is
written or left out.
-/
namespace SX.Spec

/-- Of the children `l` that an enum is offered there are some for the variant `w`, and none for other variants. -/
def OneChoice (d : EnumDef) (w : Variant) (l : List Elem) : Prop :=
  w ∈ d.variants ∧ (∃ c ∈ l, c.name.expanded = w.name.expanded) ∧
  ∀ c ∈ l, ∀ w' ∈ d.variants, c.name.expanded = w'.name.expanded → w'.name.expanded = w.name.expanded

/-- Those with a name. -/
def withName (n : EName) (l : List Elem) : List Elem := l.filter fun c => c.name.expanded == n

/-- The children that are left for a flattened field after those of types `es` before it: what comes before the first child one of them knows. -/
def leftBy (env : Env) : List Nat → List Elem → List Elem
  | [], l => l
  | e :: es, l => leftBy env es (l.takeWhile fun c => (env.enm e).variants.all fun w => w.name.expanded != c.name.expanded)

/-- The children that are offered to flattened fields at all. -/
def notFields (fields : List Field) (x : Elem) : List Elem := x.children.children.filter fun c => !declaredElem fields c.name.expanded

/-- Nothing is there for an element field in `x`, and what is there for it in `y` stands for its default. -/
def Defaulted (env : Env) (f : Field) (s : Slot) (x y : Elem) : Prop :=
  x.children.childrenNamed f.name.expanded = [] ∧ y.children.childrenNamed f.name.expanded ≠ [] ∧
  ∃ d, f.default = some d ∧ slotValue s none (named f.name.expanded (kids env y.children)) = some d

/-- No attribute is there, and one that stands for the default. -/
def AttrDefaulted (optional : Bool) (t : TextTy) (default : Option Val) (l l' : List XAttr) : Prop :=
  l = [] ∧ ∃ a v, l' = [a] ∧ t.parse a.value = .ok v ∧ default = some (if optional then .opt (some (.text v)) else .text v)

/-- The attributes for an attribute field: none, or one with a text for the same value, or the default left out in one of them. -/
def LikeAttrs (optional : Bool) (t : TextTy) (default : Option Val) (l l' : List XAttr) : Prop :=
  l = [] ∧ l' = [] ∨ (∃ a b v, l = [a] ∧ l' = [b] ∧ t.parse a.value = .ok v ∧ t.parse b.value = .ok v) ∨
  AttrDefaulted optional t default l l' ∨ AttrDefaulted optional t default l' l

/-- The same declared content but for how it is written. -/
inductive Alike (env : Env) : Ty → Elem → Elem → Prop where
  /-- Texts for the same value. -/
  | text {t : TextTy} {x y : Elem} {v : TVal} (hx : x.children.children = []) (hy : y.children.children = [])
      (h : t.parse x.children.text = .ok v) (h' : t.parse y.children.text = .ok v) : Alike env (.text t) x y
  /-- The same variant, and children that are alike. -/
  | enm {i : Nat} {x y : Elem} {w : Variant} (hx : OneChoice (env.enm i) w x.children.children) (hy : OneChoice (env.enm i) w y.children.children)
      (counts : ∀ s, w.slot = some s → (withName w.name.expanded x.children.children).length = (withName w.name.expanded y.children.children).length)
      (items : ∀ s (p : Nat) u v, w.slot = some s → (withName w.name.expanded x.children.children)[p]? = some u →
        (withName w.name.expanded y.children.children)[p]? = some v → Alike env s.ty u v) : Alike env (.enm i) x y
  /-- The same attributes, as many children for each element field and alike, and for each flattened field the same variant. -/
  | strct {i : Nat} {x y : Elem}
      (attrs : ∀ f o t, f ∈ (env.strct i).fields → f.kind = .attribute o t →
        LikeAttrs o t f.default (attrsNamed f.name.expanded x.attrs) (attrsNamed f.name.expanded y.attrs))
      (counts : ∀ f s, f ∈ (env.strct i).fields → f.kind = .element s →
        (x.children.childrenNamed f.name.expanded).length = (y.children.childrenNamed f.name.expanded).length ∨
          Defaulted env f s x y ∨ Defaulted env f s y x)
      (items : ∀ f s (p : Nat) u v, f ∈ (env.strct i).fields → f.kind = .element s →
        (x.children.childrenNamed f.name.expanded).length = (y.children.childrenNamed f.name.expanded).length →
        (x.children.childrenNamed f.name.expanded)[p]? = some u → (y.children.childrenNamed f.name.expanded)[p]? = some v → Alike env s.ty u v)
      (flat : ∀ pre f post e, (env.strct i).fields = pre ++ f :: post → f.kind = .flatten e →
        ∃ w, OneChoice (env.enm e) w (leftBy env (flatTypes pre) (notFields (env.strct i).fields x)) ∧
          OneChoice (env.enm e) w (leftBy env (flatTypes pre) (notFields (env.strct i).fields y)))
      (flatCounts : ∀ pre f post e w s, (env.strct i).fields = pre ++ f :: post → f.kind = .flatten e →
        OneChoice (env.enm e) w (leftBy env (flatTypes pre) (notFields (env.strct i).fields x)) → w.slot = some s →
        (withName w.name.expanded (leftBy env (flatTypes pre) (notFields (env.strct i).fields x))).length =
          (withName w.name.expanded (leftBy env (flatTypes pre) (notFields (env.strct i).fields y))).length)
      (flatItems : ∀ pre f post e w s (p : Nat) u v, (env.strct i).fields = pre ++ f :: post → f.kind = .flatten e →
        OneChoice (env.enm e) w (leftBy env (flatTypes pre) (notFields (env.strct i).fields x)) → w.slot = some s →
        (withName w.name.expanded (leftBy env (flatTypes pre) (notFields (env.strct i).fields x)))[p]? = some u →
        (withName w.name.expanded (leftBy env (flatTypes pre) (notFields (env.strct i).fields y)))[p]? = some v → Alike env s.ty u v) :
      Alike env (.strct i) x y

end SX.Spec
