import Verif.Spec.DeriveForms

/-
What the documentation says about reading (`static-xml/src/lib.rs`, `de/mod.rs`, `README.md`), as statements about documents.
-/
namespace SX.Spec

/-- The same but for where the text is between the child elements, at every depth, and for the name of the element itself: the same attributes,
the same child elements in the same order, the same text when the pieces are put together.  (`README.md:47-50`:
`<p>foo<i>bar</i>baz</p>` and `<p>foobaz<i>bar</i></p>`; `lib.rs:216-219`, `de/mod.rs:260-263`: the name of the root is not looked at.) -/
inductive Remixed : Elem → Elem → Prop where
  | mk {x y : Elem} (attrs : ∀ n, (attrsNamed n x.attrs).map XAttr.value = (attrsNamed n y.attrs).map XAttr.value)
      (text : x.children.text = y.children.text)
      (names : x.children.children.map (·.name.expanded) = y.children.children.map (·.name.expanded))
      (items : ∀ (p : Nat) u v, x.children.children[p]? = some u → y.children.children[p]? = some v → Remixed u v) : Remixed x y

/-- `impl<T: ParseText> Deserialize for T`, for any `parse` (`de/mod.rs:1067-1072`, as a specification: `element.read_string()?`, then `parse`). -/
def readsText {σ α : Type} (parse : String → Except DErr α) : Deser σ α := fun _ =>
  .readString fun r =>
    match r with
    | .error e => .ok (.error e)
    | .ok s =>
      match parse s with
      | .ok a => .ok (.ok a)
      | .error e => .ok (.error (.wrap e))

/-- `lib.rs:24-26`: "Currently this `Deserialize` implementation will *ignore* attributes and child elements": what is read is what is read
without them. -/
def IgnoresAttrs {α : Type} (reads : Doc → Except Fault (Except Error α)) : Prop :=
  ∀ d attrs, reads { d with root := { d.root with attrs } } = reads d

/-- Without the child elements. -/
def textOnly : Forest → Forest
  | .nil => .nil
  | .elem _ _ _ _ _ _ rest => textOnly rest
  | .chars s c p rest => .chars s c p (textOnly rest)
  | .misc m p rest => .misc m p (textOnly rest)

def IgnoresChildren {α : Type} (reads : Doc → Except Fault (Except Error α)) : Prop :=
  ∀ d a, reads { d with root := { d.root with children := textOnly d.root.children } } = .ok (.ok a) → reads d = .ok (.ok a)

end SX.Spec
