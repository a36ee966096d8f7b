import Verif.Spec.Derive
import Verif.Spec.DeriveSer

/-
Sets of derived types of two versions of a program: which changes keep the documents there are, and which values correspond.  Structs and enums that
correspond have the same number.  `N` and `M`: names that elements and attributes of existing documents do not have.
-/
namespace SX.Spec

/-- All texts of the old type are texts of the new one. -/
def TextGrown (t t' : TextTy) : Prop := ∀ s v, t.parse s = .ok v → ∃ v', t'.parse s = .ok v'

/-- Types that correspond. -/
inductive TyGrown : Ty → Ty → Prop where
  | text {t t' : TextTy} : TextGrown t t' → TyGrown (.text t) (.text t')
  | strct (i : Nat) : TyGrown (.strct i) (.strct i)
  | enm (i : Nat) : TyGrown (.enm i) (.enm i)

/-- The type of an element or attribute field. -/
def slotOf : Kind → Option Slot
  | .element s => some s
  | .attribute optional t => some { card := if optional then .opt else .one, ty := .text t }
  | _ => none

/-- What a field is if there is nothing for it. -/
def absentOf (f : Field) : Option Val :=
  match slotOf f.kind with
  | some s => f.default.or (slotAbsent s)
  | none => none

/-- A changed slot: `T`, `Option<T>` and `Vec<T>` may become each other, but a `Vec` stays one. -/
structure SlotGrown (s s' : Slot) : Prop where
  card : s.card = .many → s'.card = .many
  ty : TyGrown s.ty s'.ty

/-- A changed field: the same kind and name, and if it could be left out it still can. -/
def FieldGrown (f f' : Field) : Prop :=
  match f.kind, f'.kind with
  | .element s, .element s' => f'.name.expanded = f.name.expanded ∧ SlotGrown s s' ∧ ((absentOf f).isSome → (absentOf f').isSome)
  | .attribute _ t, .attribute _ t' => f'.name.expanded = f.name.expanded ∧ TextGrown t t' ∧ ((absentOf f).isSome → (absentOf f').isSome)
  | .flatten e, .flatten e' => e' = e
  | _, _ => False

/-- An added field: named as nothing is yet. -/
def Fresh (N M : EName → Prop) (f : Field) : Prop :=
  match f.kind with
  | .element _ => N f.name.expanded
  | .attribute _ _ => M f.name.expanded
  | _ => False

/-- A changed struct: fields are changed, added or removed.  Those added are named as nothing is yet, and can be left out.  Fields are removed only
from structs without flattened fields (`free`), which could take their elements. -/
inductive FieldsGrown (N M : EName → Prop) (free : Prop) : List Field → List Field → Prop where
  | nil : FieldsGrown N M free [] []
  | kept {f f' l l'} : FieldGrown f f' → FieldsGrown N M free l l' → FieldsGrown N M free (f :: l) (f' :: l')
  | added {f' l l'} : Fresh N M f' → (absentOf f').isSome → FieldsGrown N M free l l' → FieldsGrown N M free l (f' :: l')
  | removedAttribute {f o t l l'} : f.kind = .attribute o t → FieldsGrown N M free l l' → FieldsGrown N M free (f :: l) l'
  | removedElement {f s l l'} : free → f.kind = .element s → FieldsGrown N M free l l' → FieldsGrown N M free (f :: l) l'

/-- A changed enum: variants are changed or added; those added are named as nothing is yet. -/
inductive VariantsGrown (N : EName → Prop) : List Variant → List Variant → Prop where
  | nil : VariantsGrown N [] []
  | unit {w w' l l'} : w'.name.expanded = w.name.expanded → w'.skip = w.skip → w.slot = none → w'.slot = none → VariantsGrown N l l' → VariantsGrown N (w :: l) (w' :: l')
  | payload {w w' s s' l l'} : w'.name.expanded = w.name.expanded → w'.skip = w.skip → w.slot = some s → w'.slot = some s' → SlotGrown s s' → VariantsGrown N l l' →
      VariantsGrown N (w :: l) (w' :: l')
  | added {w' l l'} : N w'.name.expanded → VariantsGrown N l l' → VariantsGrown N l (w' :: l')

/-- The types of the new version. -/
structure Grown (N M : EName → Prop) (env env' : Env) : Prop where
  structs : ∀ i, FieldsGrown N M (flatTypes (env'.strct i).fields = []) (env.strct i).fields (env'.strct i).fields
  enums : ∀ i, VariantsGrown N (env.enm i).variants (env'.enm i).variants

/-- No element or attribute is named thus. -/
def Avoids (N M : EName → Prop) : Forest → Prop
  | .nil => True
  | .elem n a _ _ ch _ rest => ¬ N n.expanded ∧ (∀ x ∈ a, ¬ M x.name.expanded) ∧ Avoids N M ch ∧ Avoids N M rest
  | .chars _ _ _ rest => Avoids N M rest
  | .misc _ _ rest => Avoids N M rest

/-- No attribute of the root, and nothing in it. -/
def DocAvoids (N M : EName → Prop) (d : Doc) : Prop := (∀ x ∈ d.root.attrs, ¬ M x.name.expanded) ∧ Avoids N M d.root.children

/-- No declaration of the old version uses the names. -/
structure NewNames (env : Env) (N M : EName → Prop) : Prop where
  elems : ∀ i (f : Field) s, f ∈ (env.strct i).fields → f.kind = .element s → ¬ N f.name.expanded
  attrs : ∀ i (f : Field) o t, f ∈ (env.strct i).fields → f.kind = .attribute o t → ¬ M f.name.expanded
  variants : ∀ i (w : Variant), w ∈ (env.enm i).variants → ¬ N w.name.expanded

mutual
/-- Values that correspond. -/
inductive ValGrown (N M : EName → Prop) (env env' : Env) : Ty → Ty → Val → Val → Prop where
  /-- The same text. -/
  | text {t t' s v v'} : t.parse s = .ok v → t'.parse s = .ok v' → ValGrown N M env env' (.text t) (.text t') (.text v) (.text v')
  | strct {i vs vs'} : FieldsVals N M env env' (env.strct i).fields (env'.strct i).fields vs vs' → ValGrown N M env env' (.strct i) (.strct i) (.strct vs) (.strct vs')
  /-- Variants of the same name. -/
  | unit {i j j' w w'} : (env.enm i).variants[j]? = some w → (env'.enm i).variants[j']? = some w' → w'.name.expanded = w.name.expanded → w.slot = none → w'.slot = none →
      ValGrown N M env env' (.enm i) (.enm i) (.enm j none) (.enm j' none)
  | payload {i j j' w w' s s' p p'} : (env.enm i).variants[j]? = some w → (env'.enm i).variants[j']? = some w' → w'.name.expanded = w.name.expanded →
      w.slot = some s → w'.slot = some s' → CardOk s.card p → CardOk s'.card p' → AllGrown N M env env' s.ty s'.ty (valuesOf s.card p) (valuesOf s'.card p') →
      ValGrown N M env env' (.enm i) (.enm i) (.enm j (some p)) (.enm j' (some p'))

/-- As many, one by one. -/
inductive AllGrown (N M : EName → Prop) (env env' : Env) : Ty → Ty → List Val → List Val → Prop where
  | nil {ty ty'} : AllGrown N M env env' ty ty' [] []
  | cons {ty ty' v v' l l'} : ValGrown N M env env' ty ty' v v' → AllGrown N M env env' ty ty' l l' → AllGrown N M env env' ty ty' (v :: l) (v' :: l')

/-- The values of the fields of a struct. -/
inductive FieldsVals (N M : EName → Prop) (env env' : Env) : List Field → List Field → List Val → List Val → Prop where
  | nil : FieldsVals N M env env' [] [] [] []
  /-- Something was there. -/
  | present {f f' s s' l l' v v' vs vs'} : FieldGrown f f' → slotOf f.kind = some s → slotOf f'.kind = some s' → CardOk s.card v → CardOk s'.card v' →
      valuesOf s.card v ≠ [] → AllGrown N M env env' s.ty s'.ty (valuesOf s.card v) (valuesOf s'.card v') → FieldsVals N M env env' l l' vs vs' →
      FieldsVals N M env env' (f :: l) (f' :: l') (v :: vs) (v' :: vs')
  /-- Nothing was there. -/
  | absent {f f' l l' v v' vs vs'} : FieldGrown f f' → absentOf f = some v → absentOf f' = some v' → FieldsVals N M env env' l l' vs vs' →
      FieldsVals N M env env' (f :: l) (f' :: l') (v :: vs) (v' :: vs')
  | flatten {f f' e l l' v v' vs vs'} : f.kind = .flatten e → f'.kind = .flatten e → ValGrown N M env env' (.enm e) (.enm e) v v' → FieldsVals N M env env' l l' vs vs' →
      FieldsVals N M env env' (f :: l) (f' :: l') (v :: vs) (v' :: vs')
  | added {f' l l' v' vs vs'} : Fresh N M f' → absentOf f' = some v' → FieldsVals N M env env' l l' vs vs' → FieldsVals N M env env' l (f' :: l') vs (v' :: vs')
  | removed {f l l' v vs vs'} : (∀ e, f.kind ≠ .flatten e) → FieldsVals N M env env' l l' vs vs' → FieldsVals N M env env' (f :: l) l' (v :: vs) vs'
end

end SX.Spec
