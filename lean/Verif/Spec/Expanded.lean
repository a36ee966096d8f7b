import Verif.Spec.RoundTrip
import Verif.Spec.Macro

/-
How xml-rs reports the names of tags and attributes (its parser's contract), for comparing what the crate makes of them with the
rules of "Namespaces in XML" (`resolveElem`, `resolveAttr`).
-/
namespace SX.Spec

/-- The namespace of a prefix where `scopes` are in force, as xml-rs reports it: `xmlns=""` is no namespace; the prefix `xml` is
reported without its namespace by some versions (this is what `lib.rs:482-484` works around) and with it by others. -/
def PrefixReported (scopes : List (SMap String)) (p : String) (ns : Option String) : Prop :=
  if p = "xml" then ns = none ∨ ns = some "http://www.w3.org/XML/1998/namespace"
  else ns = (lookupPrefix scopes p).filter fun u => u != ""

/-- `q` is what xml-rs reports for the name `n` of a tag. -/
def TagReported (scopes : List (SMap String)) (n : WName) (q : QName) : Prop :=
  q.loc = n.loc ∧ q.pfx = n.pfx ∧ PrefixReported scopes (n.pfx.getD "") q.ns

/-- `q` is what xml-rs reports for the name `n` of an attribute. -/
def AttrReported (scopes : List (SMap String)) (n : WName) (q : QName) : Prop :=
  q.loc = n.loc ∧ q.pfx = n.pfx ∧
    match n.pfx with
    | none => q.ns = none
    | some p => PrefixReported scopes p q.ns

/-- `attrs` is what xml-rs reports for the attributes `as`: the same values in the same order. -/
def AttrsReported (scopes : List (SMap String)) (as : List (WName × String)) (attrs : List XAttr) : Prop :=
  Rowwise (fun a x => AttrReported scopes a.1 x.name ∧ x.value = a.2) as attrs

/-- `ContentReported scopes es F rest`: the events `es`, written where `scopes` are in force, begin with the content of an element
and its end tag, and continue with `rest`; `F` is what xml-rs reports for this content.  (No reference to expanded names.) -/
inductive ContentReported : List (SMap String) → List WEvent → Forest → List WEvent → Prop where
  | stop {scopes : List (SMap String)} {l : List WEvent} : ContentReported scopes (.stop :: l) .nil l
  | elem {scopes : List (SMap String)} {n : WName} {as : List (WName × String)} {m : SMap String} {l l1 l2 : List WEvent} {q : QName}
      {attrs : List XAttr} {ns : NsMap} {pos endPos : Pos} {c rest : Forest} (hn : TagReported (m :: scopes) n q)
      (ha : AttrsReported (m :: scopes) as attrs) (hc : ContentReported (m :: scopes) l c l1) (hr : ContentReported scopes l1 rest l2) :
      ContentReported scopes (.start n as m :: l) (.elem q attrs ns pos c endPos rest) l2
  | chars {scopes : List (SMap String)} {s : String} {l l1 : List WEvent} {cdata : Bool} {pos : Pos} {rest : Forest} (hs : ¬ Blank s)
      (hr : ContentReported scopes l rest l1) : ContentReported scopes (.chars s :: l) (.chars s cdata pos rest) l1
  | blank {scopes : List (SMap String)} {s : String} {l l1 : List WEvent} {rest : Forest} (hs : Blank s)
      (hr : ContentReported scopes l rest l1) : ContentReported scopes (.chars s :: l) rest l1
  | misc {scopes : List (SMap String)} {l l1 : List WEvent} {m : Misc} {pos : Pos} {F : Forest} (h : ContentReported scopes l F l1) :
      ContentReported scopes l (.misc m pos F) l1

/-- xml-rs's contract: the document that its reader reports for the events `out` given to its writer. -/
def Transported (out : List WEvent) (d : Doc) : Prop :=
  ∃ n as m l, out = .start n as m :: l ∧ TagReported [m] n d.root.name ∧ AttrsReported [m] as d.root.attrs ∧
    ContentReported [m] l d.root.children []

end SX.Spec
