import Verif.Spec.OpenSer

/-
Where in a document something is written.
-/
namespace SX.Spec.Open
open SX.Open

/-- A destination that takes everything. -/
def accepting : Sink := fun _ _ => none

/-- `p` succeeds and writes `out`, given a writer for an element with the mappings `n`. -/
def Writes (dbg : Bool) (n : Namespaces) (p : Prog [.writer false]) (out : List WEvent) : Prop :=
  ∃ s, doing dbg accepting n p { out := [], poison := none, steps := [] } = .ok (s, .ok ()) ∧ s.poison = none ∧ s.out = out

/-- `Edit q q' p p'`: what `q` and `q'` do is the same except that at one place, at any depth, `q` does `p` and `q'` does `p'`. -/
inductive Edit : Prog [.writer false] → Prog [.writer false] → Prog [.writer false] → Prog [.writer false] → Prop where
  /-- They are different altogether. -/
  | here {p p' : Prog [.writer false]} : Edit p p' p p'
  /-- In an element field of a derived struct. -/
  | field {ns : List (String × String)} {pre post : List SField} {name : DName} {w w' : EName → Prog [.writer false]} {p p' : Prog [.writer false]}
      (h : Edit (w name.expanded) (w' name.expanded) p p') :
      Edit (structSer ns (pre ++ ⟨name, .element w⟩ :: post)).children (structSer ns (pre ++ ⟨name, .element w'⟩ :: post)).children p p'
  /-- In the content of a flattened field. -/
  | flatten {ns : List (String × String)} {pre post : List SField} {name : DName} {v v' : Ser} {p p' : Prog [.writer false]}
      (h : Edit v.children v'.children p p') :
      Edit (structSer ns (pre ++ ⟨name, .flatten v⟩ :: post)).children (structSer ns (pre ++ ⟨name, .flatten v'⟩ :: post)).children p p'
  /-- In the payload of a variant of a derived enum. -/
  | payload {ns : List (String × String)} {name : DName} {w w' : EName → Prog [.writer false]} {p p' : Prog [.writer false]}
      (h : Edit (w name.expanded) (w' name.expanded) p p') :
      Edit (enumSer ns (.payload name w)).children (enumSer ns (.payload name w')).children p p'
  /-- In the content of an element. -/
  | one {name : EName} {v v' : Ser} {p p' : Prog [.writer false]} (ha : v.attrs = v'.attrs) (h : Edit v.children v'.children p p') :
      Edit (fieldOne v name) (fieldOne v' name) p p'
  /-- In the element of an `Option`. -/
  | opt {name : EName} {v v' : Ser} {p p' : Prog [.writer false]} (h : Edit (fieldOne v name) (fieldOne v' name) p p') :
      Edit (fieldOpt (some v) name) (fieldOpt (some v') name) p p'
  /-- In a place of a `Vec` where any number of elements are exchanged. -/
  | items {name : EName} {a l l' b : List Ser} {p p' : Prog [.writer false]} (h : Edit (fieldVec l name) (fieldVec l' name) p p') :
      Edit (fieldVec (a ++ l ++ b) name) (fieldVec (a ++ l' ++ b) name) p p'
  /-- In one element of a `Vec`. -/
  | item {name : EName} {v v' : Ser} {p p' : Prog [.writer false]} (h : Edit (fieldOne v name) (fieldOne v' name) p p') :
      Edit (fieldVec [v] name) (fieldVec [v'] name) p p'

end SX.Spec.Open
