import Verif.Model.Whole
import Verif.Props.Entry

/-
Crates whose derive macros report no errors, and the types of Part II that they declare.
-/
namespace SX.Spec.Gen
open SX.Gen

/-- `derive(Deserialize)` for all declarations reports no errors; `code` is what it emits.  As the compiler demands, fields are distinct, and
variants are. -/
structure Accepted (c : Crate) (code : Emitted) : Prop where
  structs : ∀ i, derive (some (c.strct i)) (deriveDeserialize (c.fieldTy i)) = .done { errors := [], out := some (.strct (code.strct i)) }
  enums : ∀ i, derive (some (c.enm i)) (deriveDeserialize (c.payloadTy i)) = .done { errors := [], out := some (.enm (code.enm i)) }
  fieldIdents : ∀ i, ((fieldsOf (c.strct i)).map fun f => unraw f.ident).Nodup
  variantIdents : ∀ i, ((variantsOf (c.enm i)).map fun v => v.ident).Nodup

/-- The same for `derive(Serialize)`. -/
structure AcceptedSer (c : Crate) (code : SerEmitted) : Prop where
  structs : ∀ i, derive (some (c.strct i)) (deriveSerialize (c.fieldTy i)) = .done { errors := [], out := some (.strct (code.strct i)) }
  enums : ∀ i, derive (some (c.enm i)) (deriveSerialize (c.payloadTy i)) = .done { errors := [], out := some (.enm (code.enm i)) }
  fieldIdents : ∀ i, ((fieldsOf (c.strct i)).map fun f => unraw f.ident).Nodup
  variantIdents : ∀ i, ((variantsOf (c.enm i)).map fun v => v.ident).Nodup

/-- No variant is skipped. -/
def Unskipped (c : Crate) : Prop := ∀ i, ∀ v ∈ variantsOf (c.enm i), ¬ Skipped v

/-- The types of Part II that the declarations describe. -/
structure DeclaresTypes (c : Crate) (env : Env) : Prop where
  structs : ∀ i, ∃ s, describe (c.strct i) = .ok (some (.strct s), []) ∧ env.strct i = s.toDef fun f => c.means (c.fieldTy i f)
  enums : ∀ i, ∃ e, describe (c.enm i) = .ok (some (.enm e), []) ∧
    env.enm i = e.toDef (c.enm i).ident (variantsOf (c.enm i)) fun v => (c.means (c.payloadTy i v)).element

end SX.Spec.Gen
