import Verif.Spec.DeclOrder
import Verif.Spec.SourceOk

/-
The same types declared in another way: two crates whose declarations say the same, whatever the identifiers, the prefixes, the order of declarations and that of attributes.
Taken from the model: the syntax of declarations, and which types are written how.
-/
namespace SX.Spec.Gen
open SX.Gen

/-- The type written for a field. -/
def typeOf (c : Crate) (i : Nat) (f : DField) : FieldTypes := c.means (c.fieldTy i f.ident)

/-- Two fields that say the same: the expanded names (if used), the words and the types are the same, and so are the values for `default`. -/
structure SaysSame (m : Places) (c c' : Crate) (i : Nat) (f f' : DField) : Prop where
  name : word "flatten" ∉ attrItems f.attrs → ∃ n, SourceName (Maps (c.strct i)) f n ∧ SourceName (Maps (c'.strct i)) f' n
  words : ∀ w ∈ ["attribute", "flatten", "text", "default"], word w ∈ attrItems f'.attrs ↔ word w ∈ attrItems f.attrs
  element : SaysElement f → (typeOf c' i f').element = (typeOf c i f).element
  «attribute» : word "attribute" ∈ attrItems f.attrs → (typeOf c' i f').attribute = (typeOf c i f).attribute
  flatten : word "flatten" ∈ attrItems f.attrs → (typeOf c' i f').flatten = (typeOf c i f).flatten
  default : word "default" ∈ attrItems f.attrs → ∀ env env', DeclaresTypes c env → DeclaresTypes c' env' →
    (SaysElement f → SameField m env env' (.element (typeOf c i f).element) (typeOf c i f).default (typeOf c' i f').default) ∧
    (word "attribute" ∈ attrItems f.attrs → (typeOf c' i f').default = (typeOf c i f).default) ∧
    (word "flatten" ∈ attrItems f.attrs → SameField m env env' (.flatten (typeOf c i f).flatten) (typeOf c i f).default (typeOf c' i f').default)

/-- Two variants that say the same. -/
structure VariantSame (c c' : Crate) (i : Nat) (v v' : DVariant) : Prop where
  name : ∃ n, VariantName (Maps (c.enm i)) v n ∧ VariantName (Maps (c'.enm i)) v' n
  unit : v'.fields = .unit ↔ v.fields = .unit
  payload : v.fields ≠ .unit → (c'.means (c'.payloadTy i v'.ident)).element = (c.means (c.payloadTy i v.ident)).element

/-- The declarations of a crate, written in another way; but flattened fields are in their order and enums have their names. -/
structure Rewritten (m : Places) (c c' : Crate) : Prop where
  fields : ∀ i (p : Nat) f', (fieldsOf (c'.strct i))[p]? = some f' → ∃ f, (fieldsOf (c.strct i))[m.field i p]? = some f ∧ SaysSame m c c' i f f'
  all : ∀ i (q : Nat), q < (fieldsOf (c.strct i)).length → ∃ p, p < (fieldsOf (c'.strct i)).length ∧ m.field i p = q
  flattened : ∀ i (p q : Nat) f g, (fieldsOf (c'.strct i))[p]? = some f → (fieldsOf (c'.strct i))[q]? = some g → word "flatten" ∈ attrItems f.attrs →
    word "flatten" ∈ attrItems g.attrs → p < q → m.field i p < m.field i q
  idents : ∀ i, (c'.enm i).ident = (c.enm i).ident
  variants : ∀ i (p : Nat) v', (variantsOf (c'.enm i))[p]? = some v' → ∃ v, (variantsOf (c.enm i))[m.variant i p]? = some v ∧ VariantSame c c' i v v'
  allVariants : ∀ i (q : Nat), q < (variantsOf (c.enm i)).length → ∃ p, p < (variantsOf (c'.enm i)).length ∧ m.variant i p = q

/-- Nothing is at another place. -/
def Places.same : Places := ⟨fun _ p => p, fun _ p => p⟩

end SX.Spec.Gen
