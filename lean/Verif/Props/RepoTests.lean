import Verif.Model.DeriveDe
import Verif.Model.DeriveSer
import Verif.Model.Macro
import Verif.Model.Display
import Verif.Spec.Tree

/-
The repository's own tests, run on the model: evidence that the model says what the code does.  These are tests, not proofs of
properties.  (The strings written by xml-rs are compared as events.)
-/
namespace SX.RepoTests
open SX.Spec

/-! ## `static-xml/src/ser/mod.rs:762-975` -/

def fine : Sink := fun _ _ => none

def old : String := "http://example.com/old"
def new : String := "http://example.com/new"
def dflt : String := "http://example.com/default"
def override : String := "http://example.com/override"

/-- Lines 766-826: `blah`. -/
example : ∃ s, serializeTo true fine ⟨old, "foo"⟩
    (.namespace "old" old (.namespace "new" new (.attribute ⟨old, "attr"⟩ "old-value" fun r =>
      match r with
      | .error e => .ret (.error e)
      | .ok () => .attribute ⟨new, "attr"⟩ "new-value" fun r =>
        match r with
        | .error e => .ret (.error e)
        | .ok () => .ret (.ok ()))))
    (.text "some text here" fun r =>
      match r with
      | .error e => .ret (.error e)
      | .ok () => .ret (.ok ())) = .ok (s, .ok ()) ∧
    s.out = [.start ⟨some "old", "foo"⟩ [(⟨some "old", "attr"⟩, "old-value"), (⟨some "new", "attr"⟩, "new-value")]
        [("new", new), ("old", old)],
      .chars "some text here", .stop] := ⟨_, rfl, rfl⟩

/-- Lines 828-856: `dropped_builder`. -/
example : ∃ s, serializeTo true fine ⟨"", "foo"⟩ (.ret (.ok ())) (.element ⟨"", "bar"⟩ (.dropBuilder (.ret (.ok ())))) =
    .ok (s, .error .builderDropped) := ⟨_, rfl⟩

/-- Lines 858-885: `dropped_writer`. -/
example : ∃ s, serializeTo true fine ⟨"", "foo"⟩ (.ret (.ok ()))
    (.element ⟨"", "bar"⟩ (.start (.dropWriter (.ret (.ok ()))) fun _ => .ret (.ok ()))) =
    .ok (s, .error .writerDropped) := ⟨_, rfl⟩

section
attribute [local semireducible] natDigits

/-- Lines 887-923: `unprefixed_attr_namespace`. -/
example : ∃ s, serializeTo true fine ⟨"", "foo"⟩
    (.namespace "" dflt (.attribute ⟨dflt, "attr"⟩ "value" fun r =>
      match r with
      | .error e => .ret (.error e)
      | .ok () => .ret (.ok ()))) (.ret (.ok ())) = .ok (s, .ok ()) ∧
    s.out = [.start ⟨none, "foo"⟩ [(⟨some "ns1", "attr"⟩, "value")] [("ns1", dflt)], .stop] := ⟨_, rfl, rfl⟩

/-- Lines 925-975: `namespace_prefix_renamed`. -/
example : ∃ s, serializeTo true fine ⟨"", "root"⟩
    (.namespace "foo" dflt (.attribute ⟨dflt, "attr"⟩ "value" fun r =>
      match r with
      | .error e => .ret (.error e)
      | .ok () => .ret (.ok ())))
    (.element ⟨dflt, "child"⟩ (.namespace "foo" override (.attribute ⟨override, "attr"⟩ "value" fun r =>
      match r with
      | .error e => .dropBuilder (.ret (.error e))
      | .ok () => .start (.finish fun r =>
          match r with
          | .error e => .ret (.error e)
          | .ok () => .ret (.ok ())) fun e => .ret (.error e)))) = .ok (s, .ok ()) ∧
    s.out = [.start ⟨none, "root"⟩ [(⟨some "foo", "attr"⟩, "value")] [("foo", dflt)],
      .start ⟨some "foo", "child"⟩ [(⟨some "foo2", "attr"⟩, "value")] [("foo", dflt), ("foo2", override)], .stop, .stop] :=
  ⟨_, rfl, rfl⟩
end

/-! ## `static-xml/src/de/mod.rs:1074-1209` -/

def at0 : Pos := ⟨0, 0⟩
def q (loc : String) : QName := { loc, ns := none, pfx := none }
def qp (pfx ns loc : String) : QName := { loc, ns := some ns, pfx := some pfx }
def el (loc : String) (children : Forest) (rest : Forest) : Forest := .elem (q loc) [] [] at0 children at0 rest
def tx (s : String) (rest : Forest := .nil) : Forest := .chars s false at0 rest
def ws (rest : Forest) : Forest := .misc (.whitespace "\n            ") at0 rest
def doc (loc : String) (attrs : List XAttr) (children : Forest) : Doc :=
  { startPos := at0, prolog := [], root := { name := q loc, attrs, ns := [], pos := at0, children, endPos := at0 }, epilog := []
    eofPos := at0, epilogOk := by simp }

/-- Lines 1087, 785-819: the default methods of `ElementVisitor`; children are returned, hence skipped. -/
def dummy : Visitor Unit where
  onAttr _ _ _ := .ok ((), .ok ())
  onChars _ _ _ := .ok ((), .ok ())
  onElem _ _ := .done (.ok ((), .ok ()))

/-- Lines 1088-1094. -/
def dummyDeser : Deser Unit Unit := fun _ => .readTo () fun _ r => .ok (r.map fun _ => ())

/-- Lines 1135-1139: `bad_xml`. -/
example : ∃ e, read true dummy dummyDeser { items := [], final := .err "Unexpected characters outside the root element: a" at0, finalPos := at0 } =
    .ok (.error e) := ⟨_, rfl⟩

/-- Lines 1141-1145: `empty_element`. -/
example : read true dummy dummyDeser (doc "root" [] .nil).input = .ok (.ok ()) := rfl

/-- Lines 1147-1151: `nested_element`. -/
example : read true dummy dummyDeser (doc "root" [] (el "a" (el "b" (el "c" .nil .nil) .nil) .nil)).input = .ok (.ok ()) := rfl

def noTypes : Env where
  strct _ := { root := ⟨none, ""⟩, namespaces := [], fields := [] }
  enm _ := { ident := "", root := ⟨none, ""⟩, namespaces := [], variants := [] }

def boolIn (s : String) : Except Fault (Except Error Val) := readTy true noTypes (.text .bool) (doc "root" [] (tx s)).input

/-- Lines 1153-1161: `bool`, as text. -/
example : boolIn "true" = .ok (.ok (.text (.bool true))) := rfl
example : boolIn "false" = .ok (.ok (.text (.bool false))) := rfl
example : boolIn "1" = .ok (.ok (.text (.bool true))) := rfl
example : boolIn "0" = .ok (.ok (.text (.bool false))) := rfl

/-- Lines 1101-1115: `AttrWrapperVisitor<bool>`. -/
def attrWrapper : Visitor (Option Val) where
  onAttr v n s :=
    match v with
    | some _ => .ok (v, .error (.wrap (.duplicateAttribute n)))
    | none =>
      match attrInit false .bool s with
      | .error f => .error f
      | .ok (.error e) => .ok (v, .error e)
      | .ok (.ok b) => .ok (some b, .ok ())
  onChars v _ _ := .ok (v, .ok ())
  onElem v _ := .done (.ok (v, .ok ()))

/-- Lines 1116-1129, 1009-1012. -/
def attrWrapperDeser : Deser (Option Val) Val := fun _ => .readTo none fun v r =>
  match r with
  | .error e => .ok (.error e)
  | .ok _ =>
    match v with
    | none => .ok (.error (.wrap (.missingAttribute ⟨"", "attr"⟩)))
    | some b => .ok (.ok b)

def boolAttr (s : String) : Except Fault (Except Error Val) :=
  read true attrWrapper attrWrapperDeser (doc "root" [{ name := q "attr", value := s }] .nil).input

/-- Lines 1163-1205: `bool`, as attribute. -/
example : boolAttr "true" = .ok (.ok (.text (.bool true))) := rfl
example : boolAttr "false" = .ok (.ok (.text (.bool false))) := rfl
example : boolAttr "1" = .ok (.ok (.text (.bool true))) := rfl
example : boolAttr "0" = .ok (.ok (.text (.bool false))) := rfl
example : boolAttr " true " = .ok (.ok (.text (.bool true))) := rfl
example : boolAttr " false " = .ok (.ok (.text (.bool false))) := rfl
example : boolAttr " 1 " = .ok (.ok (.text (.bool true))) := rfl
example : boolAttr " 0 " = .ok (.ok (.text (.bool false))) := rfl

/-! ## `test-suite/tests/basic.rs` -/

section
attribute [local semireducible] natDigits normLoop skipWs

def d (loc : String) : DName := ⟨none, loc⟩
def bar : String := "http://example.com/bar"

/-- Lines 28-35: `ConstrainedString`. -/
def constrainedString : TextTy := .restriction "ConstrainedString" .collapse [some "Foo", some "Bar", some "BAZ"]

/-- Lines 42-49: `UnconstrainedString`. -/
def unconstrainedString : TextTy := .restriction "UnconstrainedString" .collapse [some "foo", none]

/-- Lines 6-26, 51-60: `Foo` (0) and `MyChoice` (0). -/
def basic : Env where
  strct _ :=
    { root := ⟨some "http://example.com/foo", "Foo"⟩
      namespaces := [("bar", bar), ("foo", "http://example.com/foo")]
      fields :=
        [{ name := d "mybool", kind := .attribute false .bool, default := some (.text (.bool false)) },
         { name := ⟨some bar, "blah"⟩, kind := .element { card := .many, ty := .text .string }, default := none },
         { name := d "text", kind := .element { card := .one, ty := .text .string }, default := none },
         { name := d "constrained", kind := .element { card := .one, ty := .text constrainedString }, default := none },
         { name := d "choice", kind := .element { card := .one, ty := .enm 0 }, default := none }] }
  enm _ :=
    { ident := "MyChoice", root := d "MyChoice", namespaces := []
      variants :=
        [{ name := d "foo", slot := some { card := .one, ty := .text .string }, skip := false },
         { name := d "bar", slot := some { card := .one, ty := .text .string }, skip := false },
         { name := d "baz", slot := some { card := .one, ty := .text .string }, skip := false },
         { name := d "UnitValue", slot := none, skip := false }] }

def str (s : String) : Val := .text (.str s)

/-- Lines 97-107, 116-125. -/
def foo : Val :=
  .strct [.text (.bool true), .vec [str "foo", str "bar"], str "asdf", .text (.known 0), .enm 0 (some (str "blah"))]

def blah (s : String) (rest : Forest) : Forest := .elem (qp "b" bar "blah") [] [] at0 (tx s) at0 rest

/-- Lines 81-109: `deserialize`. -/
example : readTy true basic (.strct 0) (doc "foo" [{ name := q "mybool", value := "true" }]
    (ws (blah "foo" (ws (blah "bar" (ws (el "more" (tx "more") (ws (el "text" (tx "asdf")
      (ws (el "constrained" (tx "Foo") (ws (el "choice" (el "foo" (tx "blah") .nil) (ws .nil))))))))))))) ).input =
    .ok (.ok foo) := rfl

section
attribute [local semireducible] writeChildren writeField writeVec writeElemFields writeFlattens

def urlFoo : String := "http://example.com/foo"
def inScope : SMap String := [("bar", bar), ("foo", urlFoo)]

/-- Lines 112-129: `round_trip`, first half. -/
example : ∃ s, serializeVal true fine basic ⟨urlFoo, "Foo"⟩ (.strct 0) foo = .ok (s, .ok ()) ∧
    s.out = [.start ⟨some "foo", "Foo"⟩ [(⟨none, "mybool"⟩, "true")] inScope,
      .start ⟨some "bar", "blah"⟩ [] inScope, .chars "foo", .stop,
      .start ⟨some "bar", "blah"⟩ [] inScope, .chars "bar", .stop,
      .start ⟨none, "text"⟩ [] inScope, .chars "asdf", .stop,
      .start ⟨none, "constrained"⟩ [] inScope, .chars "Foo", .stop,
      .start ⟨none, "choice"⟩ [] inScope, .start ⟨none, "foo"⟩ [] inScope, .chars "blah", .stop, .stop, .stop] := ⟨_, rfl, rfl⟩
end

/-- Lines 112-129: `round_trip`, second half. -/
example : readTy true basic (.strct 0) { doc "Foo" [{ name := q "mybool", value := "true" }]
    (blah "foo" (blah "bar" (el "text" (tx "asdf") (el "constrained" (tx "Foo") (el "choice" (el "foo" (tx "blah") .nil) .nil))))) with
    root := { name := qp "foo" "http://example.com/foo" "Foo", attrs := [{ name := q "mybool", value := "true" }], ns := [], pos := at0
              children := blah "foo" (blah "bar" (el "text" (tx "asdf") (el "constrained" (tx "Foo")
                (el "choice" (el "foo" (tx "blah") .nil) .nil)))), endPos := at0 } }.input = .ok (.ok foo) := rfl

/-- Lines 131-163: `parse_str_variants`. -/
example : constrainedString.parse "Foo" = .ok (.known 0) := rfl
example : constrainedString.parse "Bar" = .ok (.known 1) := rfl
example : constrainedString.parse "BAZ" = .ok (.known 2) := rfl
example : constrainedString.parse "\n  BAZ  " = .ok (.known 2) := rfl
example : ∃ e, constrainedString.parse "asdf" = .err e := ⟨_, rfl⟩
example : ∃ e, constrainedString.parse "baz" = .err e := ⟨_, rfl⟩
example : unconstrainedString.parse "foo" = .ok (.known 0) := rfl
example : unconstrainedString.parse "bar" = .ok (.unknown "bar") := rfl

end

/-! ## `test-suite/tests/element_enum.rs` -/

/-- Lines 6-19: `Holder` (0) and `Enum` (0). -/
def holder : Env where
  strct _ := { root := d "Holder", namespaces := [], fields := [{ name := d "enum_", kind := .flatten 0, default := none }] }
  enm _ :=
    { ident := "Enum", root := d "Enum", namespaces := []
      variants :=
        [{ name := d "Simple", slot := some { card := .one, ty := .text .string }, skip := false },
         { name := d "Vec", slot := some { card := .many, ty := .text .string }, skip := false },
         { name := d "Unit", slot := none, skip := false }] }

/-- Lines 26-48: `deserialize_simple`. -/
example : readTy true holder (.strct 0) (doc "foo" []
    (ws (el "field" (tx "before") (ws (el "Simple" (tx "asdf") (ws (el "field" (tx "after") (ws .nil)))))))).input =
    .ok (.ok (.strct [.enm 0 (some (str "asdf"))])) := rfl

/-- Lines 51-74: `deserialize_vec`. -/
example : readTy true holder (.strct 0) (doc "foo" []
    (ws (el "field" (tx "before") (ws (el "Vec" (tx "foo") (ws (el "Vec" (tx "bar") (ws (el "field" (tx "after") (ws .nil)))))))))).input =
    .ok (.ok (.strct [.enm 1 (some (.vec [str "foo", str "bar"]))])) := rfl

attribute [local semireducible] natDigits hexDigits in
/-- Lines 77-102: `deserialize_mix_error`. -/
example (x : Ext) : ∃ e, readTy true holder (.strct 0) (doc "foo" []
    (ws (el "Vec" (tx "foo") (ws (el "Simple" (tx "bar") (ws .nil)))))).input = .ok (.error e) ∧
    "Got unexpected element Simple after Vec".toList <+: e.display x ∧
    e.stack.map (fun s => s.name.loc) = ["foo", "Simple"] := by
  refine ⟨{ kind := .deserializer (.unexpectedElement ⟨"", "Simple"⟩ ⟨"", "Vec"⟩)
            stack := [{ name := q "foo", pos := at0 }, { name := q "Simple", pos := at0 }], pos := at0 }, rfl, ?_, rfl⟩
  have h : ErrKind.display x (.deserializer (.unexpectedElement ⟨"", "Simple"⟩ ⟨"", "Vec"⟩)) = "Got unexpected element Simple after Vec" :=
    show "Got unexpected element " ++ "Simple" ++ " after " ++ "Vec" = "Got unexpected element Simple after Vec" by decide
  simp only [Error.display, h, List.append_assoc]
  exact List.prefix_append _ _

end SX.RepoTests
