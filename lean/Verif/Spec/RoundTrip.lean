import Verif.Spec.DeriveSer
import Verif.Spec.Derive
import Verif.Spec.Whitespace

/-
Reading back what was written.  The way from the events given to xml-rs's writer to those reported by its
reader goes through bytes; this part of xml-rs is not modelled but assumed to be faithful in the sense of `Denotes`.
-/
namespace SX.Spec

/-- Empty, or only white space. -/
def Blank (s : String) : Prop := ∀ c ∈ s.toList, isWs c = true

instance (s : String) : Decidable (Blank s) := by unfold Blank; infer_instance

/-- The character data that a text node is reported as: blank ones are skipped by `Reader::next` (`de/mod.rs:458-462`, xml-rs
reports them as white space, or, if empty, not at all). -/
def visible (s : String) : String := if Blank s then "" else s

/-- `F`, as reported by the parser, is the content `f` as it was written: the same elements and attributes (in whatever prefixes)
and the same text, except that blank text is not reported; comments, processing instructions and white space events, in
particular those of indentation, may come in anywhere. -/
inductive Denotes : EForest → Forest → Prop where
  | nil : Denotes .nil .nil
  | elem {n : EName} {as : List (EName × String)} {c rest : EForest} {q : QName} {attrs : List XAttr} {ns : NsMap} {pos endPos : Pos}
      {c' rest' : Forest} (hn : q.expanded = n) (ha : attrs.map (fun a => (a.name.expanded, a.value)) = as) (hc : Denotes c c')
      (hr : Denotes rest rest') : Denotes (.elem n as c rest) (.elem q attrs ns pos c' endPos rest')
  | chars {s : String} {rest : EForest} {cdata : Bool} {pos : Pos} {rest' : Forest} (hs : ¬ Blank s) (hr : Denotes rest rest') :
      Denotes (.chars s rest) (.chars s cdata pos rest')
  | blank {s : String} {rest : EForest} {rest' : Forest} (hs : Blank s) (hr : Denotes rest rest') : Denotes (.chars s rest) rest'
  | misc {f : EForest} {m : Misc} {pos : Pos} {F : Forest} (h : Denotes f F) : Denotes f (.misc m pos F)

/-- The document `d`, as reported by the parser, is what was written with the events `out`. -/
def ReadsBack (out : List WEvent) (d : Doc) : Prop :=
  ∃ n as f, resolveEvents out [] = some (.start n as :: (f.events ++ [.stop])) ∧
    d.root.name.expanded = n ∧ d.root.attrs.map (fun a => (a.name.expanded, a.value)) = as ∧ Denotes f d.root.children

/-! ### Values that can be told apart when read -/

/-- An attribute field's value is read back from its text, or, if there is none, from its absence. -/
def AttrReadable (f : Field) (o : Bool) (t : TextTy) (v : Val) : Prop :=
  match attrText o t v with
  | some s => ∃ tv, t.parse s = .ok tv ∧ v = if o then .opt (some (.text tv)) else .text tv
  | none => f.default.or (attrAbsent o) = some v

/-- The values of a type that the documents of the type distinguish: texts are read back from what is visible of them, what is
absent when written is what is read when absent, variants have an element.  (Each restriction is necessary, see C35.) -/
inductive Readable (env : Env) : Ty → Val → Prop where
  | text {t : TextTy} {tv : TVal} {s : String} (hs : t.toText tv = some s) (hp : t.parse (visible s) = .ok tv) :
      Readable env (.text t) (.text tv)
  | strct {i : Nat} {vs : List Val} (len : vs.length = (env.strct i).fields.length)
      (attrs : ∀ (p : Nat) (f : Field) (v : Val) o t, (env.strct i).fields[p]? = some f → vs[p]? = some v → f.kind = .attribute o t →
        AttrReadable f o t v)
      (card : ∀ (p : Nat) (f : Field) (s : Slot) (v : Val), (env.strct i).fields[p]? = some f → vs[p]? = some v → f.kind = .element s →
        CardOk s.card v ∧ (valuesOf s.card v = [] → f.default.or (slotAbsent s) = some v))
      (elems : ∀ (p : Nat) (f : Field) (s : Slot) (v w : Val), (env.strct i).fields[p]? = some f → vs[p]? = some v →
        f.kind = .element s → w ∈ valuesOf s.card v → Readable env s.ty w)
      (flats : ∀ (p : Nat) (f : Field) (e : Nat) (v : Val), (env.strct i).fields[p]? = some f → vs[p]? = some v →
        f.kind = .flatten e → Readable env (.enm e) v) : Readable env (.strct i) (.strct vs)
  | unit {i j : Nat} {w : Variant} (hv : (env.enm i).variants[j]? = some w) (hs : w.slot = none) :
      Readable env (.enm i) (.enm j none)
  | payload {i j : Nat} {w : Variant} {s : Slot} {p : Val} (hv : (env.enm i).variants[j]? = some w) (hs : w.slot = some s)
      (card : CardOk s.card p) (ne : valuesOf s.card p ≠ []) (items : ∀ x ∈ valuesOf s.card p, Readable env s.ty x) :
      Readable env (.enm i) (.enm j (some p))

/-- Structs have at most one flattened field, none of whose variants has the name of an element field. -/
structure FlattenOk (env : Env) : Prop where
  one : ∀ i (p q : Nat) (f g : Field) e e', (env.strct i).fields[p]? = some f → (env.strct i).fields[q]? = some g →
    f.kind = .flatten e → g.kind = .flatten e' → p = q
  apart : ∀ i (f g : Field) s e (w : Variant), f ∈ (env.strct i).fields → g ∈ (env.strct i).fields → f.kind = .element s →
    g.kind = .flatten e → w ∈ (env.enm e).variants → w.name.expanded ≠ f.name.expanded

end SX.Spec
