import Verif.Spec.RoundTrip

/-
Reading what was written from what was read.
-/
namespace SX.Spec

/-- Values read from text can be written and read again; what is written is blank only if what was read is. -/
def Stable (t : TextTy) : Prop :=
  ∀ s v, t.parse s = .ok v → ∃ s', t.toText v = some s' ∧ t.parse s' = .ok v ∧ (Blank s' → Blank s)

/-- All text types that fields and variants use are `Stable`. -/
structure TextsStable (env : Env) : Prop where
  elems : ∀ i (f : Field) s t, f ∈ (env.strct i).fields → f.kind = .element s → s.ty = .text t → Stable t
  attrs : ∀ i (f : Field) o t, f ∈ (env.strct i).fields → f.kind = .attribute o t → Stable t
  variants : ∀ i (w : Variant) s t, w ∈ (env.enm i).variants → w.slot = some s → s.ty = .text t → Stable t

/-- Declared defaults are values of the fields' types that can be read back themselves. -/
structure DefaultsOk (env : Env) : Prop where
  elems : ∀ i (f : Field) s d, f ∈ (env.strct i).fields → f.kind = .element s → f.default = some d →
    CardOk s.card d ∧ ∀ w ∈ valuesOf s.card d, HasTy env s.ty w ∧ Readable env s.ty w
  attrs : ∀ i (f : Field) o t d, f ∈ (env.strct i).fields → f.kind = .attribute o t → f.default = some d →
    Shape (.attribute o t) d ∧ AttrReadable f o t d

/-- The text of every element, if it is blank, is empty.  (Blank text is reported only if it is in a CDATA section.) -/
def TextVisible : Forest → Prop
  | .nil => True
  | .elem _ _ _ _ ch _ rest => (Blank ch.text → ch.text = "") ∧ TextVisible ch ∧ TextVisible rest
  | .chars _ _ _ rest => TextVisible rest
  | .misc _ _ rest => TextVisible rest

def Elem.TextVisible (x : Elem) : Prop := (Blank x.children.text → x.children.text = "") ∧ SX.Spec.TextVisible x.children

end SX.Spec
