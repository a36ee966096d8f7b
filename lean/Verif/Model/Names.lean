import Verif.Model.Basic

/-
Expanded names and their lookup: `static-xml/src/lib.rs:462-501`, `de/mod.rs:948-956`, and the
sorting of lookup tables in `static-xml-derive/src/common.rs`.
-/
namespace SX

/-- `lib.rs:472-476`: `ExpandedNameRef`. -/
structure EName where
  ns : String
  loc : String
  deriving DecidableEq, Repr

/-- The derived `Ord` of `ExpandedNameRef` (`lib.rs:472`): namespace first, then local name.
Rust compares `str`s by their UTF-8 bytes, Lean by their characters; UTF-8 keeps that order. -/
def EName.cmp (a b : EName) : Ordering := (compare a.ns b.ns).then (compare a.loc b.loc)

/-- `lib.rs:493-501`: `Display for ExpandedNameRef` (and for the owned `ExpandedName`, `lib.rs:509-528`, which has the same parts). -/
def EName.display (n : EName) : String :=
  if n.ns = "" then n.loc else "{" ++ n.ns ++ "}" ++ n.loc

/-- `xml::name::Name`/`OwnedName` (xml-rs): a resolved qualified name. -/
structure QName where
  loc : String
  ns : Option String
  pfx : Option String
  deriving DecidableEq, Repr

/-- `lib.rs:462`: `XML_NS`. -/
def xmlNs : String := "http://www.w3.org/XML/1998/namespace"

/-- `lib.rs:479-490`: `ExpandedNameRef::from_xml_name`. -/
def QName.expanded (n : QName) : EName :=
  { ns := match n.ns with
      | none => if n.pfx = some "xml" then xmlNs else ""
      | some ns => ns
    loc := n.loc }

/-- `slice::binary_search` (std, as of the crate's time): `left`/`right`/`size` loop.  The slice is read
unchecked at `mid`; out of range is a fault (`ub`).  `fuel` bounds the iterations. -/
def bsearch (cmp : EName → Ordering) (t : List EName) : Nat → Nat → Nat → Except Fault (Option Nat)
  | 0, left, right => if left < right then .error .fuel else .ok none
  | fuel + 1, left, right =>
    if left < right then
      let mid := left + (right - left) / 2
      match t[mid]? with
      | none => .error .ub
      | some x =>
        match cmp x with
        | .lt => bsearch cmp t fuel (mid + 1) right
        | .gt => bsearch cmp t fuel left mid
        | .eq => .ok (some mid)
    else .ok none

/-- `de/mod.rs:954-956`: `find` is `sorted_slice.binary_search(name).ok()`. -/
def find (name : EName) (t : List EName) : Except Fault (Option Nat) :=
  bsearch (fun x => x.cmp name) t t.length 0 t.length

/-- One step of `sortBy`: insert before the first element that is not smaller, so that elements that
compare equal keep their order.  Stands for the stable sorts of `std` called in `common.rs:468,469,654`. -/
def insertBy {α : Type} (cmp : α → α → Ordering) (a : α) : List α → List α
  | [] => [a]
  | b :: l => if cmp a b = .gt then b :: insertBy cmp a l else a :: b :: l

/-- `slice::sort_by`/`sort_by_key` (std): a stable sort.  All stable sorts agree; this is insertion
sort. -/
def sortBy {α : Type} (cmp : α → α → Ordering) : List α → List α
  | [] => []
  | a :: l => insertBy cmp a (sortBy cmp l)

/-- A declared name: `common.rs:259-264` (`Name`), without `ident` and `prefix`. -/
structure DName where
  ns : Option String
  loc : String
  deriving DecidableEq, Repr

/-- `common.rs:276-281`: `Name::expanded` (and `quote_expanded`, 283-293). -/
def DName.expanded (n : DName) : EName := { ns := n.ns.getD "", loc := n.loc }

/-- The comparison used to sort enum variants (`common.rs:654-659`): on the *optional* namespace. -/
def DName.cmpOpt (a b : DName) : Ordering := (compare a.ns b.ns).then (compare a.loc b.loc)

/-- The struct lookup table: field positions and expanded names, sorted with `sort_by_key(expanded)`
(`common.rs:446-481`, tables emitted by `deserialize.rs:148-162`). `names` pairs each element (or
attribute) field's position with its declared name. -/
def structTable (names : List (Nat × DName)) : List (Nat × EName) :=
  sortBy (fun a b => a.2.cmp b.2) (names.map fun p => (p.1, p.2.expanded))

/-- The enum lookup table (`common.rs:654-659`, `deserialize.rs:339-343`): variants sorted by optional
namespace and local name, then displayed with `quote_expanded`. -/
def enumTable (names : List (Nat × DName)) : List (Nat × EName) :=
  (sortBy (fun a b => a.2.cmpOpt b.2) names).map fun p => (p.1, p.2.expanded)

/-- The generated `match find(&name, TABLE)`: the position (field or variant number) whose table entry
is found (`deserialize.rs:164-224,289,300,344-394,415`).  Simplification: an index outside the table
would fall into the `_` arm of the generated `match`; here it is a fault, proved impossible. -/
def lookup (name : EName) (table : List (Nat × EName)) : Except Fault (Option Nat) :=
  match find name (table.map Prod.snd) with
  | .error f => .error f
  | .ok none => .ok none
  | .ok (some i) =>
    match table[i]? with
    | none => .error .panic
    | some p => .ok (some p.1)

end SX
