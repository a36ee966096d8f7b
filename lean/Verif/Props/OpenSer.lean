import Verif.Proof.OpenSer
import Verif.Props.DeriveSer

/-
C53, C54: the generated serializers when the types of fields are written by hand.
-/
namespace SX
open Open Spec Spec.Open

namespace ExOS

def n (l : String) : EName := ⟨"", l⟩

/-- A hand-written implementation: an attribute, then a text. -/
def leaf (t : String) : Ser where
  attrs := .attribute (n "len") t fun r => .ret r
  children := .text t .ret

/-- A hand-written implementation of `SerializeField` that writes two elements and ignores the name it gets. -/
def twice : Prog [.writer false] := andThen (fieldOne (leaf "a") (n "x")) (fieldOne (leaf "b") (n "y"))

/-- One that returns an error of its own, after having written an element. -/
def fails (name : EName) : Prog [.writer false] := andThen (fieldOne (leaf "a") name) (.ret (.error .writerDropped))

/-- One that abandons an element and claims that all is well. -/
def abandons (name : EName) : Prog [.writer false] := .element name (.dropBuilder (.ret (.ok ())))

/-- One that ignores that adding its attribute failed. -/
def stubborn : Ser where
  attrs := .attribute (n "k") "2" fun _ => .ret (.ok ())
  children := .text "tail" .ret

def fields : List SField :=
  [⟨⟨none, "f"⟩, .flatten stubborn⟩, ⟨⟨none, "e"⟩, .element fun nm => fieldVec [leaf "1", leaf "22"] nm⟩, ⟨⟨none, "t"⟩, .text⟩,
    ⟨⟨none, "k"⟩, .attribute (attrOne (.ok "v"))⟩, ⟨⟨none, "g"⟩, .element fun _ => twice⟩]

/-- `<e len="t">t</e>` -/
def leafEvents (name t : String) : List WEvent := [.start ⟨none, name⟩ [(⟨none, "len"⟩, t)] [], .chars t, .stop]

def fine : Sink := fun _ _ => none

theorem leaf_noForget (t : String) : NoForget (leaf t).children := fun _ => trivial

theorem noForget : (∀ p ∈ elementsOf fields, NoForget p) ∧ ∀ v ∈ flattenedOf fields, NoForget v.children := by
  constructor
  · intro p hp
    simp only [elementsOf, fields, List.filterMap_cons, List.filterMap_nil, List.mem_cons, List.not_mem_nil, or_false] at hp
    rcases hp with rfl | rfl
    · exact andThen_noForget (fieldOne_noForget _ _ (leaf_noForget _)) (andThen_noForget (fieldOne_noForget _ _ (leaf_noForget _)) trivial)
    · exact andThen_noForget (fieldOne_noForget _ _ (leaf_noForget _)) (fieldOne_noForget _ _ (leaf_noForget _))
  · intro v hv
    simp only [flattenedOf, fields, List.filterMap_cons, List.filterMap_nil, List.mem_cons, List.not_mem_nil, or_false] at hv
    subst hv
    exact fun _ => trivial

end ExOS

/-! ### C53 -/

/-- C53: the generated `write_children` of a struct lets the implementations for its element fields write, in the order of the fields,
then those for its flattened fields; it stops at the first error, and nothing else writes. -/
theorem C53_children (dbg : Bool) (sink : Sink) (n : Namespaces) (namespaces : List (String × String)) (fields : List SField) (s : WState) :
    doing dbg sink n (structSer namespaces fields).children s =
      inTurn ((elementsOf fields ++ (flattenedOf fields).map Ser.children).map (doing dbg sink n)) s :=
  structSer_run dbg sink n namespaces fields s

/-- C53: the generated `write_attributes` declares the namespaces of the struct, then lets the implementations for its attribute fields
write, in order, then those for its flattened fields. -/
theorem C53_attributes (dbg : Bool) (namespaces : List (String × String)) (fields : List SField) (b : Builder) :
    (structSer namespaces fields).attrs.run dbg b = inTurn (namespaces.map (declaring dbg) ++ (attributesOf fields).map (fun p => p.run dbg) ++
      (flattenedOf fields).map fun v => v.attrs.run dbg) b := structSer_attrs_run dbg namespaces fields b

/-- C53: a `Vec` of values writes one element for each, in order; an `Option` at most one. -/
theorem C53_many (dbg : Bool) (sink : Sink) (n : Namespaces) (name : EName) (s : WState) :
    (∀ l, doing dbg sink n (fieldVec l name) s = inTurn (l.map fun v => doing dbg sink n (fieldOne v name)) s) ∧
    (∀ v : Option Ser, doing dbg sink n (fieldOpt v name) s = inTurn (v.toList.map fun v => doing dbg sink n (fieldOne v name)) s) := by
  refine ⟨fun l => fieldVec_run dbg sink n l name s, fun v => ?_⟩
  cases v with
  | none => rfl
  | some v =>
    rw [show fieldOpt (some v) name = fieldVec [v] name from rfl, fieldVec_run]
    rfl

/-- C53: the generated implementation of an enum declares its namespaces, and lets the implementation for the payload of the value's
variant write, with the name of the variant.  A unit variant is written as an element without attributes and content; a skipped one
not at all. -/
theorem C53_enum (dbg : Bool) (sink : Sink) (n : Namespaces) (namespaces : List (String × String)) (name : DName) (w : EName → Prog [.writer false])
    (s : WState) :
    doing dbg sink n (enumSer namespaces (.payload name w)).children s = doing dbg sink n (w name.expanded) s ∧
    doing dbg sink n (enumSer namespaces (.unit name)).children s =
      doing dbg sink n (fieldOne ⟨.ret (.ok ()), .ret (.ok ())⟩ name.expanded) s ∧
    doing dbg sink n (enumSer namespaces .skipped).children s = .ok (s, .ok ()) ∧
    ∀ v b, (enumSer namespaces v).attrs.run dbg b = inTurn (namespaces.map (declaring dbg)) b := by
  have key : ∀ p, doing dbg sink n (andThen p (.ret (.ok ()))) s = doing dbg sink n p s := by
    intro p
    rw [andThen_run]
    unfold inTurn
    cases doing dbg sink n p s with
    | error f => rfl
    | ok x => obtain ⟨s', r⟩ := x; cases r <;> rfl
  exact ⟨key _, key _, rfl, fun _ => writeNamespaces_run dbg namespaces⟩

example : ∃ s s', doing true ExOS.fine ⟨[], []⟩ (enumSer [] (.unit ⟨none, "u"⟩)).children { out := [], poison := none, steps := [] } = .ok (s, .ok ()) ∧
    s.out = [.start ⟨none, "u"⟩ [] [], .stop] ∧
    doing true ExOS.fine ⟨[], []⟩ (enumSer [] (.payload ⟨none, "p"⟩ fun _ => ExOS.twice)).children { out := [], poison := none, steps := [] } =
      .ok (s', .ok ()) ∧ s'.out = ExOS.leafEvents "x" "a" ++ ExOS.leafEvents "y" "b" := ⟨_, _, rfl, rfl, rfl, rfl⟩

/-- C53: types all of whose fields have types of the model of Part II are a special case. -/
theorem C53_agrees (env : Env) (i : Nat) :
    (∀ vs, vs.length = (env.strct i).fields.length →
      structSer (env.strct i).namespaces (serFields env (env.strct i).fields vs) = serOf env (.strct i) (.strct vs)) ∧
    (∀ j p, enumSer (env.enm i).namespaces (serVariant env (env.enm i) j p) = serOf env (.enm i) (.enm j p)) := by
  refine ⟨fun vs h => ?_, enumSer_open env i⟩
  have h1 := structSer_attrs env i vs h
  have h2 := structSer_children env i vs (env.strct i).namespaces
  unfold serOf
  rw [← h1, ← h2]

example : ∃ vs, ExS.lib = .strct vs ∧ vs.length = (ExS.env.strct 0).fields.length := ⟨_, rfl, rfl⟩

/-- Attributes come first, declared ones before those of flattened fields (here one that is already there, which the implementation
ignores), then elements, then the flattened field's content. -/
example : ∃ s, serializeTo true ExOS.fine (ExOS.n "r") (structSer [] ExOS.fields).attrs (structSer [] ExOS.fields).children = .ok (s, .ok ()) ∧
    s.out = .start ⟨none, "r"⟩ [(⟨none, "k"⟩, "v")] [] :: (ExOS.leafEvents "e" "1" ++ ExOS.leafEvents "e" "22" ++ ExOS.leafEvents "x" "a" ++
      ExOS.leafEvents "y" "b" ++ [.chars "tail", .stop]) := ⟨_, rfl, rfl⟩

/-! ### C54 -/

/-- C54: if no implementation leaks an `ElementWriter`, then a struct that is written with Ok is one element, whose content is what each
of its fields' implementations wrote, one after the other: no implementation can close its parent, or leave an element open. -/
theorem C54_document {dbg : Bool} {sink : Sink} {name : EName} {namespaces : List (String × String)} {fields : List SField}
    (h : ∀ p ∈ elementsOf fields, NoForget p) (h' : ∀ v ∈ flattenedOf fields, NoForget v.children) {s : WState}
    (hr : serializeTo dbg sink name (structSer namespaces fields).attrs (structSer namespaces fields).children = .ok (s, .ok ())) :
    ∃ q a m fs n, s.out = .start q a m :: (fs.flatMap WForest.events ++ [.stop]) ∧
      Rowwise (fun p f => ∃ s0 s1, doing dbg sink n p s0 = .ok (s1, .ok ()) ∧ s0.poison = none ∧ s1.poison = none ∧
        s1.out = s0.out ++ f.events) (elementsOf fields ++ (flattenedOf fields).map Ser.children) fs := structSer_document h h' hr

/-- The hypotheses hold of the example. -/
example : ∃ s, serializeTo true ExOS.fine (ExOS.n "r") (structSer [] ExOS.fields).attrs (structSer [] ExOS.fields).children = .ok (s, .ok ()) ∧
    (∀ p ∈ elementsOf ExOS.fields, NoForget p) ∧ ∀ v ∈ flattenedOf ExOS.fields, NoForget v.children := ⟨_, rfl, ExOS.noForget⟩

/-- C54: writing a value as an element field writes one element around what its implementation writes; its name and attributes are
those the implementation asked for, in the prefixes chosen for them. -/
theorem C54_element {dbg : Bool} {sink : Sink} {n : Namespaces} {v : Ser} {name : EName} (hf : NoForget v.children) {s s' : WState}
    (h : doing dbg sink n (fieldOne v name) s = .ok (s', .ok ())) :
    ∃ b m q as f s0 s1, v.attrs.run dbg (Builder.new name (n.child name.ns)) = .ok (b, .ok ()) ∧ b.ns.finalize = .ok m ∧
      m.resolveElement b.name = .ok q ∧ resolveAttrs m b.attrs = .ok as ∧ doing dbg sink m v.children s0 = .ok (s1, .ok ()) ∧
      s1.out = s0.out ++ f.events ∧ s'.out = s.out ++ documentEvents q as m.byPrefix f := fieldOne_written hf h

example : ∃ s', doing true ExOS.fine ⟨[], []⟩ (fieldOne (ExOS.leaf "z") (ExOS.n "e")) { out := [], poison := none, steps := [] } = .ok (s', .ok ()) ∧
    NoForget (ExOS.leaf "z").children ∧ s'.out = ExOS.leafEvents "e" "z" := ⟨_, rfl, ExOS.leaf_noForget _, rfl⟩

/-- C54: a value of a text type written as an element field with Ok is one element with its text, which `to_text` returned Ok. -/
theorem C54_text {dbg : Bool} {sink : Sink} {n : Namespaces} {t : Except SErr String} {name : EName} {s s' : WState}
    (h : doing dbg sink n (fieldOne (textSer t) name) s = .ok (s', .ok ())) :
    ∃ x q ns, t = .ok x ∧ s'.out = s.out ++ documentEvents q [] ns (.chars x .nil) := by
  obtain ⟨b, m, q, as, f, s0, s1, h1, h2, h3, h4, h5, h6, h7⟩ := fieldOne_written (v := textSer t) (by cases t with | error e => exact trivial | ok x => exact fun _ => trivial) h
  simp only [textSer, AttrProg.run, Except.ok.injEq, Prod.mk.injEq, and_true] at h1
  subst h1
  simp only [Builder.new, resolveAttrs, Except.ok.injEq] at h4
  subst h4
  cases t with
  | error e => simp [textSer, doing, Prog.run] at h5
  | ok x =>
    refine ⟨x, q, m.byPrefix, rfl, ?_⟩
    simp only [textSer, doing, Prog.run, Except.ok.injEq, Prod.mk.injEq] at h5
    have hw := write_clean (write_ok h5.2)
    rw [h5.1, h6] at hw
    have : f.events = [.chars x] := by simpa using hw.2.1
    rw [h7, documentEvents, this]
    rfl

example : ∃ s', doing true ExOS.fine ⟨[], []⟩ (fieldOne (textSer (.ok "x")) (ExOS.n "e")) { out := [], poison := none, steps := [] } = .ok (s', .ok ()) := ⟨_, rfl⟩

/-- C54: the same for attributes. -/
theorem C54_attribute {dbg : Bool} {t : Except SErr String} {name : EName} {b b' : Builder} (h : (attrOne t name).run dbg b = .ok (b', .ok ())) :
    ∃ x, t = .ok x ∧ b'.attrs = b.attrs ++ [(name, x)] ∧ b'.name = b.name := by
  cases t with
  | error e => simp [attrOne, AttrProg.run] at h
  | ok x =>
    refine ⟨x, rfl, ?_⟩
    simp only [attrOne, AttrProg.run] at h
    cases hb : b.attribute name x with
    | error f => rw [hb] at h; simp at h
    | ok y =>
      obtain ⟨b1, r⟩ := y
      rw [hb] at h
      simp only [Except.ok.injEq, Prod.mk.injEq] at h
      obtain ⟨rfl, rfl⟩ := h
      unfold Builder.attribute at hb
      split at hb
      · split at hb
        · simp at hb
        · simp at hb
      · simp only [Except.ok.injEq, Prod.mk.injEq, and_true] at hb
        subst hb
        exact ⟨rfl, rfl⟩

example : ∃ b, (attrOne (.ok "x") (ExOS.n "a")).run true (Builder.new (ExOS.n "e") []) = .ok (b, .ok ()) := ⟨_, rfl⟩

/-- C54: an error while an element field is written breaks the writer: whoever ignores it cannot write a document all the same. -/
theorem C54_error {dbg : Bool} {sink : Sink} {n : Namespaces} {v : Ser} {name : EName} {s s' : WState} {e : SErr}
    (h : doing dbg sink n (fieldOne v name) s = .ok (s', .error e)) : s'.poison ≠ none := fieldOne_poison dbg sink n v name s s' e h

example : ∃ s', doing true ExOS.fine ⟨[], []⟩ (fieldOne ⟨.ret (.ok ()), ExOS.fails (ExOS.n "x")⟩ (ExOS.n "e"))
    { out := [], poison := none, steps := [] } = .ok (s', .error .writerDropped) ∧ s'.poison = some .writerDropped ∧
    s'.out = .start ⟨none, "e"⟩ [] [] :: ExOS.leafEvents "x" "a" := ⟨_, rfl, rfl, rfl⟩

/-- C54: an implementation that abandons an element but returns Ok does not make a document of it. -/
example : ∃ s, serializeTo true ExOS.fine (ExOS.n "r") (structSer [] [⟨⟨none, "e"⟩, .element ExOS.abandons⟩]).attrs
    (structSer [] [⟨⟨none, "e"⟩, .element ExOS.abandons⟩]).children = .ok (s, .error .builderDropped) := ⟨_, rfl⟩

end SX
