import Verif.Proof.OpenDeclared
import Verif.Props.OpenSer

/-
C78: derived serializers whose fields have arbitrary types do not panic, if the implementations for these types declare the namespaces they use.
-/
namespace SX
open Open Spec Spec.Open

/-! ## C78 -/

/-- C78: the generated implementation for a struct declares all namespaces that are used, if the implementations for its fields do, given those that it
declares itself: for attributes those that add to the same start tag one after another, for content each one on its own. -/
theorem C78_struct (name : EName) (ns : List (String × String)) (fields : List SField) (inherited required : List String) (dflt : Bool)
    (hns : ∀ m ∈ ns, MayDeclare m.1 m.2)
    (h : InTurnDeclared (attributesOf fields ++ (flattenedOf fields).map Ser.attrs)
      (.builder name inherited ((ns.map Prod.snd).reverse ++ required) (dflt || ns.any fun m => m.1 == "")) fun sc =>
        match sc with
        | .builder n _ r d => MayStart n r d ∧ ∀ p ∈ elementsOf fields ++ (flattenedOf fields).map Ser.children, Prog.Declared p [.writer r d]
        | .writer _ _ => False) :
    SerDeclared name (structSer ns fields) inherited required dflt :=
  declared_structSer name ns fields inherited required dflt hns h

/-- C78: the same for an enum. -/
theorem C78_enum (name : EName) (ns : List (String × String)) (v : SVariant) (inherited required : List String) (dflt : Bool)
    (hns : ∀ m ∈ ns, MayDeclare m.1 m.2) (hs : MayStart name ((ns.map Prod.snd).reverse ++ required) (dflt || ns.any fun m => m.1 == ""))
    (h : match v with
      | .unit n => ChildDeclared n.expanded ⟨.ret (.ok ()), .ret (.ok ())⟩ ((ns.map Prod.snd).reverse ++ required) (dflt || ns.any fun m => m.1 == "")
      | .payload n w => Prog.Declared (w n.expanded) [.writer ((ns.map Prod.snd).reverse ++ required) (dflt || ns.any fun m => m.1 == "")]
      | .skipped => True) :
    SerDeclared name (enumSer ns v) inherited required dflt :=
  declared_enumSer name ns v inherited required dflt hns hs h

/-- C78: the same for element fields of types `T`, `Option<T>` and `Vec<T>`, if `T` declares the namespaces it uses. -/
theorem C78_field (name : EName) (mapped : List String) (dflt : Bool) :
    (∀ w, ChildDeclared name w mapped dflt → Prog.Declared (fieldOne w name) [.writer mapped dflt]) ∧
    (∀ w : Option Ser, (∀ v, w = some v → ChildDeclared name v mapped dflt) → Prog.Declared (fieldOpt w name) [.writer mapped dflt]) ∧
    ∀ ws : List Ser, (∀ w ∈ ws, ChildDeclared name w mapped dflt) → Prog.Declared (fieldVec ws name) [.writer mapped dflt] := by
  refine ⟨fun w h => declared_fieldOne h, fun w h => ?_, fun ws h => declared_fieldVec h⟩
  cases w with
  | none => trivial
  | some v => exact declared_then (declared_fieldOne (h v rfl)) trivial

/-- C78: attribute fields of types `T` and `Option<T>` use the namespace of their name only. -/
theorem C78_attribute (name : EName) (inherited required : List String) (dflt : Bool) (a : EName)
    (ha : a.ns = "" ∨ a.ns = xmlNs ∨ a.ns ∈ inherited ∨ a.ns ∈ required) (K : HScope → Prop) (hK : K (.builder name inherited required dflt))
    (t : Option (Except SErr String)) : AttrProg.Declared (attrOpt t a) (.builder name inherited required dflt) K ∧
      ∀ s, t = some s → AttrProg.Declared (attrOne s a) (.builder name inherited required dflt) K := by
  have key : ∀ (s : Except SErr String), AttrProg.Declared (attrOne s a) (.builder name inherited required dflt) K := by
    intro s
    cases s with
    | error e => trivial
    | ok s =>
      refine ⟨ha, fun res => ?_⟩
      cases res with
      | error e => trivial
      | ok u => exact hK
  refine ⟨?_, fun s _ => key s⟩
  cases t with
  | none => exact hK
  | some s => exact declared_andThen _ _ _ _ (key s)

/-- C78: then serialization to a document never panics, whatever the output does. -/
theorem C78_never_panics (dbg : Bool) (sink : Sink) (name : EName) (w : Ser) (h : SerDeclared name w [] [] false) :
    ∃ s r, serializeTo dbg sink name w.attrs w.children = .ok (s, r) :=
  serializeTo_total dbg sink name w.attrs w.children h

/-! ### Example -/

namespace ExOD

/-- A hand-written type: an attribute in a namespace that it declares itself, and an element in the namespace of the struct. -/
def own : Ser where
  attrs := .namespace "o" "urn:o" (.attribute ⟨"urn:o", "k"⟩ "v" fun r => .ret r)
  children := fieldOne (ExOS.leaf "t") ⟨"urn:s", "inner"⟩

def ns : List (String × String) := [("s", "urn:s")]

/-- An element field, an attribute and a flattened field. -/
def fields : List SField :=
  [⟨⟨some "urn:s", "e"⟩, .element fun nm => fieldVec [own, own] nm⟩, ⟨⟨some "urn:s", "a"⟩, .attribute (attrOne (.ok "x"))⟩,
    ⟨⟨none, "f"⟩, .flatten own⟩]

/-- Without the namespace of the struct. -/
def undeclared : List SField := [⟨⟨some "urn:s", "e"⟩, .element fun nm => fieldOne (ExOS.leaf "t") nm⟩]

theorem own_declared (mapped : List String) (h : "urn:s" ∈ mapped) : ChildDeclared ⟨"urn:s", "e"⟩ own mapped false := by
  unfold ChildDeclared
  rw [if_pos h]
  refine ⟨⟨by decide, by decide, by decide⟩, .inr (.inr (.inr (by simp))), fun res => ?_⟩
  cases res with
  | error e => trivial
  | ok u =>
    refine ⟨.inr (.inl (by simp)), declared_fieldOne ?_⟩
    refine ⟨.inl rfl, fun res => ?_⟩
    cases res with
    | error e => trivial
    | ok u => exact ⟨.inr (.inl (by simp)), fun _ => trivial⟩

theorem declared : SerDeclared ⟨"", "r"⟩ (structSer ns fields) [] [] false := by
  refine C78_struct _ _ _ _ _ _ ?_ ?_
  · intro m hm
    simp only [ns, List.mem_cons, List.not_mem_nil, or_false] at hm
    subst hm
    exact ⟨by decide, by decide, by decide⟩
  · refine (C78_attribute _ _ _ _ _ (.inr (.inr (.inr ?_))) _ ?_ (some (.ok "x"))).2 (.ok "x") rfl
    · simp [ns, DName.expanded]
    · refine ⟨⟨by decide, by decide, by decide⟩, .inr (.inr (.inr (by simp))), fun res => ?_⟩
      cases res with
      | error e => trivial
      | ok u =>
        refine ⟨.inr (.inr ⟨rfl, rfl⟩), fun p hp => ?_⟩
        simp only [elementsOf, flattenedOf, fields, List.map_cons, List.map_nil, List.filterMap_cons, List.filterMap_nil, List.cons_append,
          List.nil_append, List.mem_cons, List.not_mem_nil, or_false] at hp
        rcases hp with rfl | rfl
        · refine (C78_field _ _ _).2.2 [own, own] fun w hw => ?_
          simp only [List.mem_cons, List.not_mem_nil, or_false, or_self] at hw
          subst hw
          exact own_declared _ (by simp [ns])
        · refine declared_fieldOne ⟨.inl rfl, fun res => ?_⟩
          cases res with
          | error e => trivial
          | ok u => exact ⟨.inr (.inl (by simp [ns])), fun _ => trivial⟩

example (dbg : Bool) (sink : Sink) : ∃ s r, serializeTo dbg sink ⟨"", "r"⟩ (structSer ns fields).attrs (structSer ns fields).children = .ok (s, r) :=
  C78_never_panics dbg sink _ _ declared

/-- A namespace that nobody declares: it panics. -/
example : serializeTo false ExOS.fine ⟨"", "r"⟩ (structSer [] undeclared).attrs (structSer [] undeclared).children = .error .panic ∧
    ∃ s, serializeTo false ExOS.fine ⟨"", "r"⟩ (structSer ns undeclared).attrs (structSer ns undeclared).children = .ok (s, .ok ()) := ⟨rfl, _, rfl⟩

end ExOD

/-- An enum with a payload written by hand. -/
example := C78_enum ⟨"", "r"⟩ ExOD.ns (.payload ⟨some "urn:s", "e"⟩ (fieldOne ExOD.own)) [] [] false
  (by simp [ExOD.ns, MayDeclare, xmlNs]) (.inr (.inr ⟨rfl, rfl⟩)) ((C78_field _ _ _).1 _ (ExOD.own_declared _ (by simp [ExOD.ns])))

end SX
