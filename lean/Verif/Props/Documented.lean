import Verif.Proof.Documented
import Verif.Props.Reorder
import Verif.Props.Open

/-
C87: what the documentation says about reading.
-/
namespace SX
open Spec

/-! ### Text types as element types (`lib.rs:19-26`, `de/mod.rs:605-610`) -/

theorem firstElem_none (f : Forest) : f.firstElem = none ↔ f.children = [] := by
  induction f with
  | nil => simp [Forest.firstElem, Forest.children]
  | elem n a ns p ch ep rest _ _ => simp [Forest.firstElem, Forest.children]
  | chars s c p rest ih => simpa [Forest.firstElem, Forest.children] using ih
  | misc m p rest ih => simpa [Forest.firstElem, Forest.children] using ih

/-- **C87.** A type with `ParseText`, whatever its `parse`, read as the type of a document: `parse` of the text, if the root has no child elements;
otherwise an error that names the first of them.  Attributes and the name of the root do not matter to the value. -/
theorem C87_text {σ α : Type} (dbg : Bool) (V : Visitor σ) (hV : NoSwallow V) (parse : String → Except DErr α) (d : Doc) :
    read dbg V (readsText parse) d.input = .ok (match d.root.children.firstElem with
      | none =>
        match parse d.root.children.text with
        | .ok a => .ok a
        | .error e => .error { kind := .deserializer e, stack := [⟨d.root.name, d.root.pos⟩], pos := d.root.endPos }
      | some c => .error { kind := .msg (.elementInString c.name), stack := [⟨d.root.name, d.root.pos⟩, c], pos := c.pos }) := by
  rw [read_spec dbg V (readsText parse) (.inr ⟨hV, fun _ e a h => by cases h⟩) d]
  unfold readDoc deser readsText asText
  simp only
  cases d.root.children.firstElem with
  | some c => rfl
  | none =>
    simp only
    cases parse d.root.children.text <;> rfl

/-- A `parse` for the examples: texts that are not empty. -/
def ExD.nonEmpty (s : String) : Except DErr String := if s.isEmpty then .error (.user "empty") else .ok s

/-- `<r a="1" b="x" c="1:2">` with text, a comment and text. -/
def ExD.textDoc : Doc := 
  { Ex.doc with root := { Ex.doc.root with children := .chars "a" false (Ex.p 3) (.misc (.comment "c") (Ex.p 4) (.chars "b" true (Ex.p 5) .nil)) } }

example : NoSwallow noVisitor ∧ read true noVisitor (readsText ExD.nonEmpty) ExD.textDoc.input = .ok (.ok "ab") :=
  ⟨fun _ _ => trivial, rfl⟩

/-- **C87.** `lib.rs:24-25`: such a type ignores attributes. -/
theorem C87_text_attributes {σ α : Type} (dbg : Bool) (V : Visitor σ) (hV : NoSwallow V) (parse : String → Except DErr α) :
    IgnoresAttrs fun d => read dbg V (readsText parse) d.input := by
  intro d attrs
  simp only [C87_text dbg V hV parse]

theorem textOnly_children (f : Forest) : (textOnly f).firstElem = none ∧ (textOnly f).text = f.text := by
  induction f with
  | nil => exact ⟨rfl, rfl⟩
  | elem n a ns p ch ep rest _ ih => exact ih
  | chars s c p rest ih => exact ⟨ih.1, by simp only [textOnly, Forest.text, ih.2]⟩
  | misc m p rest ih => exact ih

/-- **C87.** `lib.rs:24-25` says that such a type ignores child elements: no type does of which there is a value, as `de/mod.rs:607` says. -/
theorem C87_text_children_refuted {σ α : Type} (dbg : Bool) (V : Visitor σ) (hV : NoSwallow V) (parse : String → Except DErr α) (s : String) (a : α)
    (ha : parse s = .ok a) : ¬ IgnoresChildren fun d => read dbg V (readsText parse) d.input := by
  intro h
  have := h { Ex.doc with root := { Ex.doc.root with children := .chars s false (Ex.p 3) (.elem (Ex.q "i") [] [] (Ex.p 4) .nil (Ex.p 5) .nil) } } a
    (by simp [C87_text dbg V hV parse, textOnly, Forest.firstElem, Forest.text, ha])
  simp [C87_text dbg V hV parse, Forest.firstElem] at this

example : ExD.nonEmpty "ab" = .ok "ab" := rfl

/-- **C87.** The text types of the crate and of the macros are such types: a document is read as one exactly if its root has no child elements
and its text is one. -/
theorem C87_text_types (dbg : Bool) (env : Env) (t : TextTy) (d : Doc) (v : Val) :
    readTy dbg env (.text t) d.input = .ok (.ok v) ↔
      d.root.children.children = [] ∧ ∃ tv, t.parse d.root.children.text = .ok tv ∧ v = .text tv := by
  rw [readTy_doc]
  unfold readDoc deser asText
  simp only [deserTy]
  rw [← firstElem_none]
  cases d.root.children.firstElem with
  | some c => simp
  | none =>
    simp only
    cases h : t.parse d.root.children.text with
    | ok tv => simp [eq_comm]
    | err e => simp
    | fault f => simp

example : readTy true Ex.env (.text .string) ExD.textDoc.input = .ok (.ok (.text (.str "ab"))) := rfl

/-! ### Names and order (`README.md:45-54`, `lib.rs:216-219`) -/

/-- **C87.** Where the text is between the child elements, at any depth, and the name of the root make no difference to what is read, whatever
the types. -/
theorem C87_remixed (dbg dbg' : Bool) (env : Env) (hok : EnvOk env) (ty : Ty) (d d' : Doc) (h : Remixed d.root d'.root) (v : Val) :
    readTy dbg env ty d.input = .ok (.ok v) ↔ readTy dbg' env ty d'.input = .ok (.ok v) :=
  C46_same_content dbg dbg' env hok ty d d' (remixed_same env h ty) v

namespace ExD

/-- `<i>bar</i>` -/
def i (rest : Forest) : Forest := .elem (Ex.q "i") [] [] (Ex.p 3) (.chars "bar" false (Ex.p 4) .nil) (Ex.p 5) rest
/-- `<p>foo<i>bar</i>baz</p>` -/
def p1 : Elem := ⟨Ex.q "p", [], [], Ex.p 1, .chars "foo" false (Ex.p 2) (i (.chars "baz" false (Ex.p 6) .nil)), Ex.p 7⟩
/-- `<q>foobaz<i>bar</i></q>` -/
def p2 : Elem := ⟨Ex.q "q", [], [], Ex.p 1, .chars "foobaz" false (Ex.p 2) (i .nil), Ex.p 7⟩

theorem remixed_refl_i {u v : Elem} (hu : u ∈ (i .nil).children) (hv : v ∈ (i .nil).children) : Remixed u v := by
  simp only [i, Forest.children, List.mem_singleton] at hu hv
  subst hu; subst hv
  exact .mk (fun _ => rfl) rfl rfl (by intro p u v hu; cases hu)

end ExD

/-- The example of the README, with another name. -/
example : Remixed ExD.p1 ExD.p2 := by
  refine .mk (fun _ => rfl) rfl rfl ?_
  intro p u v hu hv
  exact ExD.remixed_refl_i (List.mem_of_getElem? hu) (List.mem_of_getElem? hv)

/-! ### Methods (`de/mod.rs:541-545,686-707`) -/

/-- **C87.** `read_to` "Always returns the `VisitorError::Propagate` form", whatever the visitor. -/
theorem C87_read_to {σ : Type} (dbg : Bool) (V : Visitor σ) (fuel : Nat) (er : ElemReader) (v v' : σ) (s s' : RState) (e : VErr)
    (h : readTo dbg V fuel er v s = .ok (v', .error e, s')) : ∃ E, e = .propagate E := by
  unfold readTo at h
  split at h
  · cases h
  · split at h
    · cases h
    · rename_i hv
      cases h
      exact visitAttrs_propagates V _ _ _ _ _ _ hv
    · exact readLoop_propagates dbg V fuel er _ v' _ s' e h

/-- The reader in `<r>`, with a comment and an error of the parser to come. -/
def ExD.open1 : RState :=
  { inner := { pos := Ex.p 1, items := [(.misc (.comment "c"), Ex.p 2)], final := .err "cut" (Ex.p 3), finalPos := Ex.p 3 }
    depth := 1
    stack := [⟨Ex.q "r", Ex.p 1⟩] }

example : ∃ s' E, readTo true noVisitor 5 { ns := [], attrs := [], stackPos := 0 } () ExD.open1 = .ok ((), .error (.propagate E), s') ∧
    E.stack = [⟨Ex.q "r", Ex.p 1⟩] := ⟨_, _, rfl, rfl⟩

/-- **C87.** So does `read_string`. -/
theorem C87_read_string (dbg : Bool) (er : ElemReader) (fuel : Nat) (out : String) (s s' : RState) (e : VErr)
    (h : readString dbg er fuel out s = .ok (.error e, s')) : ∃ E, e = .propagate E :=
  readString_propagates dbg er fuel out s s' e h

example : ∃ s' E, readString true { ns := [], attrs := [], stackPos := 0 } 5 "" ExD.open1 = .ok (.error (.propagate E), s') ∧
    E.pos = Ex.p 3 := ⟨_, _, rfl, rfl⟩

open Open Spec.Open in
/-- **C87.** `missing` is "Called iff this field's element was not found within the parent" (and likewise for attributes): if the field has no
default.  If it has one and nothing is found, the field holds that, whatever `missing` would do. -/
theorem C87_missing {σ τ α : Type} (fields : List (OField σ τ α)) (hF : ∀ f ∈ fields, ∀ raw, f.kind = .flatten raw → Sound raw)
    (hD : Distinct fields) (h : List (Call σ)) (fs fs' : List (OCell τ α)) (hr : run (structRaw fields) h (structRaw fields).new = .ok fs)
    (d : Option (Ret Empty (List α))) (hf : (structRaw fields).finalize fs d = .ok (fs', .ok ())) (vs : List α)
    (hv : (structRaw fields).out fs' = some vs) (p : Nat) (f : OField σ τ α) (hp : fields[p]? = some f)
    (hn : found f h = none) :
    (∀ x, f.default = some (.ok x) → (∀ raw, f.kind ≠ .flatten raw) → vs[p]? = some x) ∧
    (f.default = none → (∀ impl, f.kind = .element impl → ∃ v, impl.missing f.name.expanded = .ok v ∧ vs[p]? = some v) ∧
      ∀ impl, f.kind = .attribute impl → ∃ v, impl.missing f.name.expanded = .ok v ∧ vs[p]? = some v) := by
  refine ⟨fun x hx hk => ?_, fun hd => ⟨fun impl hk => ?_, fun impl hk => ?_⟩⟩
  · obtain ⟨v, h1, h2 | ⟨-, h2⟩⟩ := C50_value fields hF hD h fs fs' hr d hf vs hv p f hp hk
    · rw [hn] at h2; cases h2
    · simp only [absent, hx] at h2
      cases h2
      exact h1
  · obtain ⟨v, h1, h2 | ⟨-, h2⟩⟩ := C50_value fields hF hD h fs fs' hr d hf vs hv p f hp (by rw [hk]; exact nofun)
    · rw [hn] at h2; cases h2
    · simp only [absent, hd, hk] at h2
      exact ⟨v, h2, h1⟩
  · obtain ⟨v, h1, h2 | ⟨-, h2⟩⟩ := C50_value fields hF hD h fs fs' hr d hf vs hv p f hp (by rw [hk]; exact nofun)
    · rw [hn] at h2; cases h2
    · simp only [absent, hd, hk] at h2
      exact ⟨v, h2, h1⟩

namespace ExD
open Open Spec.Open

/-- An element field with a default, whose `missing` would panic, and one without. -/
def fields : List ExO.F :=
  [⟨⟨none, "n"⟩, .element { ExO.counter with missing := fun _ => .panic }, some (.ok 5)⟩, ⟨⟨none, "len"⟩, .attribute ExO.length, none⟩]

example : (∀ f ∈ fields, ∀ raw, f.kind = .flatten raw → Sound raw) ∧ ∃ fs fs', run (structRaw fields) [] (structRaw fields).new = .ok fs ∧
    (structRaw fields).finalize fs none = .ok (fs', .ok ()) ∧ (structRaw fields).out fs' = some [5, 0] := by
  refine ⟨?_, _, _, rfl, rfl, rfl⟩
  intro f hf raw hk
  simp only [fields, List.mem_cons, List.not_mem_nil, or_false] at hf
  rcases hf with rfl | rfl <;> cases hk

end ExD

end SX
