import Verif.Spec.Derive

/-
A place in a document, and a place in a value.
-/
namespace SX.Spec

/-- A value with one place left open. -/
inductive Place : (Val → Val) → Prop where
  | here : Place id
  /-- In a field of a struct. -/
  | field (a b : List Val) {C : Val → Val} (h : Place C) : Place fun w => .strct (a ++ C w :: b)
  /-- In the payload of a variant. -/
  | payload (i : Nat) {C : Val → Val} (h : Place C) : Place fun w => .enm i (some (C w))
  /-- In an `Option`. -/
  | opt {C : Val → Val} (h : Place C) : Place fun w => .opt (some (C w))
  /-- In an item of a `Vec`. -/
  | item (a b : List Val) {C : Val → Val} (h : Place C) : Place fun w => .vec (a ++ C w :: b)

/-- The content of an element with one element left open, at any depth. -/
inductive Around : (Elem → Forest) → Prop where
  | here (rest : Forest) : Around fun x => .elem x.name x.attrs x.ns x.pos x.children x.endPos rest
  /-- It is inside the first element. -/
  | inside (name : QName) (attrs : List XAttr) (ns : NsMap) (pos : Pos) (endPos : Pos) (rest : Forest) {c : Elem → Forest} (h : Around c) :
      Around fun x => .elem name attrs ns pos (c x) endPos rest
  /-- It comes after an element. -/
  | elem (name : QName) (attrs : List XAttr) (ns : NsMap) (pos : Pos) (children : Forest) (endPos : Pos) {c : Elem → Forest} (h : Around c) :
      Around fun x => .elem name attrs ns pos children endPos (c x)
  | chars (s : String) (cdata : Bool) (pos : Pos) {c : Elem → Forest} (h : Around c) : Around fun x => .chars s cdata pos (c x)
  | misc (m : Misc) (pos : Pos) {c : Elem → Forest} (h : Around c) : Around fun x => .misc m pos (c x)

/-- What is read from a document that contains an element `x` of the name `n`: the same whatever is in `x`, or what `x` is as some type at one place of a value. -/
inductive ReadsLocally (env : Env) (n : EName) (value : Elem → Option Val) : Prop where
  | same (r : Option Val) (h : ∀ x : Elem, x.name.expanded = n → value x = r)
  | place (ty : Ty) (C : Val → Val) (hC : Place C) (h : ∀ x : Elem, x.name.expanded = n → value x = (bodyValue env (x.body env) ty).map C)

/-- The text type's value of a text. -/
def parsed (t : TextTy) (s : String) : Option Val :=
  match t.parse s with
  | .ok v => some (.text v)
  | _ => none

/-- The document with `x` at the open place. -/
def Doc.with (d : Doc) (c : Elem → Forest) (x : Elem) : Doc := { d with root := { d.root with children := c x } }

end SX.Spec
