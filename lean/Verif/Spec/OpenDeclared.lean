import Verif.Spec.OpenSer

/-
When implementations of `Serialize` written by hand declare the namespaces that they use.
-/
namespace SX.Spec.Open
open SX.Open

/-- All that is done to write a value as an element with this name declares the namespaces it uses.  `inherited`: the URLs with a mapping in the parent;
`required`: those sure to be mapped in the element; `dflt`: was a default namespace asked for? -/
def SerDeclared (name : EName) (w : Ser) (inherited required : List String) (dflt : Bool) : Prop :=
  AttrProg.Declared w.attrs (.builder name inherited required dflt) fun sc =>
    match sc with
    | .builder n _ r d => MayStart n r d ∧ Prog.Declared w.children [.writer r d]
    | .writer _ _ => False

/-- The same for an element inside of one in which these URLs are mapped. -/
def ChildDeclared (name : EName) (w : Ser) (mapped : List String) (dflt : Bool) : Prop :=
  SerDeclared name w mapped (if name.ns ∈ mapped then [name.ns] else []) dflt

/-- Implementations that add to the same start tag, one after another. -/
def InTurnDeclared : List AttrProg → HScope → (HScope → Prop) → Prop
  | [], sc, K => K sc
  | a :: l, sc, K => AttrProg.Declared a sc fun sc => InTurnDeclared l sc K

end SX.Spec.Open
