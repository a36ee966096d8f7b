import Verif.Spec.Source
import Verif.Spec.Whole

/-
Conditions on the source of a crate: what its derive macros accept, and what makes its documents unambiguous.  Taken from the model: the syntax of
declarations, and which types are written how.
-/
namespace SX.Spec.Gen
open SX.Gen

/-- The mappings a declaration makes. -/
def Maps (d : Decl) : String → String → Prop := Mapped (attrItems d.attrs)

/-- The expanded name of a variant in the source. -/
def VariantName (mapped : String → String → Prop) (v : DVariant) (n : EName) : Prop :=
  ∃ ns, NameNs mapped (attrItems v.attrs) ns ∧ LocalName v.ident (attrItems v.attrs) n.loc ∧ n.ns = ns.getD ""

/-- All declarations are in order: structs with named fields, none of them a text field, and enums. -/
structure InOrder (c : Crate) : Prop where
  structs : ∀ i, DeclOk (c.strct i) ∧ ¬ UsesReserved (c.strct i) ∧ ∃ fields, (c.strct i).data = .named fields
  enums : ∀ i, DeclOk (c.enm i) ∧ ¬ UsesReserved (c.enm i) ∧ ∃ vs, (c.enm i).data = .enm vs
  noText : ∀ i, ∀ f ∈ fieldsOf (c.strct i), word "text" ∉ attrItems f.attrs
  fieldIdents : ∀ i, ((fieldsOf (c.strct i)).map fun f => unraw f.ident).Nodup
  variantIdents : ∀ i, ((variantsOf (c.enm i)).map fun v => v.ident).Nodup

/-- Names do not clash: no two element fields of a struct have the same name, no two attribute fields, and no two variants of an enum; where a prefix
stands for the empty URL, its variants do not precede variants without a prefix.  There are no text fields or skipped variants. -/
structure Apart (c : Crate) : Prop where
  elems : ∀ i (p q : Nat) f g n, (fieldsOf (c.strct i))[p]? = some f → (fieldsOf (c.strct i))[q]? = some g → SaysElement f → SaysElement g →
    SourceName (Maps (c.strct i)) f n → SourceName (Maps (c.strct i)) g n → p = q
  attrs : ∀ i (p q : Nat) f g n, (fieldsOf (c.strct i))[p]? = some f → (fieldsOf (c.strct i))[q]? = some g → word "attribute" ∈ attrItems f.attrs →
    word "attribute" ∈ attrItems g.attrs → SourceName (Maps (c.strct i)) f n → SourceName (Maps (c.strct i)) g n → p = q
  noText : ∀ i, ∀ f ∈ fieldsOf (c.strct i), word "text" ∉ attrItems f.attrs
  variants : ∀ i (p q : Nat) v w n, (variantsOf (c.enm i))[p]? = some v → (variantsOf (c.enm i))[q]? = some w →
    VariantName (Maps (c.enm i)) v n → VariantName (Maps (c.enm i)) w n → p = q
  noneFirst : ∀ i, ∀ v ∈ variantsOf (c.enm i), ∀ w ∈ variantsOf (c.enm i), ∀ l l', NameNs (Maps (c.enm i)) (attrItems v.attrs) none →
    NameNs (Maps (c.enm i)) (attrItems w.attrs) (some "") → LocalName v.ident (attrItems v.attrs) l → LocalName w.ident (attrItems w.attrs) l' → ¬ l' < l
  noSkip : Unskipped c

/-- At most one flattened field in each struct, and no variant of its type has the name of an element field beside it. -/
structure FlattensApart (c : Crate) : Prop where
  one : ∀ i (p q : Nat) f g, (fieldsOf (c.strct i))[p]? = some f → (fieldsOf (c.strct i))[q]? = some g → word "flatten" ∈ attrItems f.attrs →
    word "flatten" ∈ attrItems g.attrs → p = q
  apart : ∀ i f g e n, f ∈ fieldsOf (c.strct i) → g ∈ fieldsOf (c.strct i) → SaysElement f → word "flatten" ∈ attrItems g.attrs →
    e = (c.means (c.fieldTy i g.ident)).flatten → SourceName (Maps (c.strct i)) f n →
    ∀ w ∈ variantsOf (c.enm e), ¬ VariantName (Maps (c.enm e)) w n

/-- No declaration maps a prefix that starts with `xml`, or to the empty URL or that of `xml`. -/
structure MapsOk (c : Crate) : Prop where
  structs : ∀ i p u, Maps (c.strct i) p u → MayDeclare p u
  enums : ∀ i p u, Maps (c.enm i) p u → MayDeclare p u

/-- No declaration has a default namespace. -/
structure NoDefault (c : Crate) : Prop where
  structs : ∀ i u, ¬ Maps (c.strct i) "" u
  enums : ∀ i u, ¬ Maps (c.enm i) "" u

/-- All names of elements have a prefix that stands for a namespace. -/
structure AllHavePrefix (c : Crate) : Prop where
  fields : ∀ i, ∀ f ∈ fieldsOf (c.strct i), SaysElement f → ¬ NameNs (Maps (c.strct i)) (attrItems f.attrs) none
  variants : ∀ i, ∀ v ∈ variantsOf (c.enm i), ¬ NameNs (Maps (c.enm i)) (attrItems v.attrs) none

/-- The declaration of a type. -/
def declFor (c : Crate) : Ty → Option Decl
  | .text _ => none
  | .strct i => some (c.strct i)
  | .enm i => some (c.enm i)

/-- The root element of a type has a prefix that stands for a namespace. -/
def RootHasPrefix (c : Crate) (ty : Ty) : Prop := ∀ d, declFor c ty = some d → ¬ NameNs (Maps d) (attrItems d.attrs) none

end SX.Spec.Gen
