import Verif.Spec.Writer

/-
Which prefixes the namespace URIs of a start tag get.  Only the calls (`BCall`) are taken from the rest.
-/
namespace SX.Spec

/-- What is asked for: a prefix for a URI; `needs`: a prefix that is not empty, as there are attributes in that namespace. -/
structure Request where
  url : String
  pfx : String
  needs : Bool

/-- The prefix asked for can be used. -/
def Usable (used : List String) (r : Request) : Prop := r.pfx ∉ used ∧ ¬ (r.needs = true ∧ r.pfx = "")

/-- The prefix chosen: the one asked for, if it can be used; otherwise it is numbered, from 2; and if it is empty, `ns` is, from 1. -/
inductive Chosen (used : List String) (r : Request) : String → Prop where
  | asked (h : Usable used r) : Chosen used r r.pfx
  | numbered (h : ¬ Usable used r) (hp : r.pfx ≠ "") (n : Nat) (hn : 2 ≤ n) (free : r.pfx ++ toString n ∉ used)
      (least : ∀ k, 2 ≤ k → k < n → r.pfx ++ toString k ∈ used) : Chosen used r (r.pfx ++ toString n)
  | invented (h : ¬ Usable used r) (hp : r.pfx = "") (n : Nat) (hn : 1 ≤ n) (free : "ns" ++ toString n ∉ used)
      (least : ∀ k, 1 ≤ k → k < n → "ns" ++ toString k ∈ used) : Chosen used r ("ns" ++ toString n)

/-- Prefixes are chosen one after the other; gives pairs of URI and prefix. -/
inductive Assigned : List String → List Request → List (String × String) → Prop where
  | nil {used : List String} : Assigned used [] []
  | cons {used : List String} {r : Request} {p : String} {l : List Request} {m : List (String × String)}
      (h : Chosen used r p) (t : Assigned (p :: used) l m) : Assigned used (r :: l) ((r.url, p) :: m)

/-- The calls that concern a URI: a prefix asked for (`some`), or the first call for an attribute in that namespace (`none`). -/
def concerning (url : String) (seen : List EName) : List BCall → List (Option String)
  | [] => []
  | .namespace p u :: l => if u = url then some p :: concerning url seen l else concerning url seen l
  | .attribute n _ :: l =>
    if n.ns = url ∧ n ∉ seen then none :: concerning url (n :: seen) l else concerning url (n :: seen) l

/-- What the calls that concern a URI ask for: the prefix, and is one needed.  `own`: it is the namespace of the element itself;
`inherited`: its prefix in the parent.  Attributes of an unknown namespace ask for nothing. -/
def requestOf (own : Bool) (inherited : Option String) (calls : List (Option String)) : Option (String × Bool) :=
  match inherited with
  | none =>
    match calls.dropWhile Option.isNone with
    | some p :: rest => some (p, decide (none ∈ rest))
    | _ => none
  | some q =>
    if own then some (q, decide (none ∈ calls))
    else calls.head?.map fun x => (x.getD q, decide (none ∈ calls))

/-- Strictly ascending, as strings. -/
def Ascending (l : List String) : Prop := l.Pairwise fun a b => compare a b = .lt

end SX.Spec
