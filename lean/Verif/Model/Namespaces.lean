import Verif.Model.Names
import Verif.Model.Text

/-
Model of the namespace bookkeeping of the serializer: `static-xml/src/ser/mod.rs:257-471`.
-/
namespace SX

/-- `BTreeMap<&str, α>` (std), also inside `xml::namespace::Namespace` (xml-rs): its entries in key order. -/
abbrev SMap (α : Type) := List (String × α)

/-- `BTreeMap::get`.  As used in `ser/mod.rs:270-345` and `common.rs:362`. -/
def SMap.get {α : Type} (m : SMap α) (k : String) : Option α := (m.find? fun e => e.1 == k).map Prod.snd

/-- Insertion of a key that is not there yet.  `Entry::Vacant` in `common.rs:331-333`, and part of `BTreeMap::insert` in `ser/mod.rs`. -/
def SMap.insertNew {α : Type} (k : String) (a : α) : SMap α → SMap α
  | [] => [(k, a)]
  | e :: m => if compare k e.1 == .lt then (k, a) :: e :: m else e :: SMap.insertNew k a m

/-- `BTreeMap::insert`, `*map.get_mut(k).unwrap() = a`.  As used in `ser/mod.rs:270-345`. -/
def SMap.set {α : Type} (k : String) (a : α) (m : SMap α) : SMap α :=
  if (m.get k).isSome then m.map fun e => if e.1 = k then (k, a) else e else SMap.insertNew k a m

/-- `xml::namespace::Namespace::put` (xml-rs): adds a mapping unless the prefix is mapped; was it added? -/
def nsPut (m : SMap String) (pfx url : String) : SMap String × Bool :=
  if (m.get pfx).isSome then (m, false) else (SMap.insertNew pfx url m, true)

/-- `ser/mod.rs:447-471`: `Namespace`. -/
structure NsEntry where
  requested : String
  assigned : Option String
  required : Bool
  needsPrefix : Bool
  deriving DecidableEq, Repr

/-- `ser/mod.rs:258-263`: `NamespacesBuilder`, by URL. -/
abbrev NsBuilder := SMap NsEntry

/-- `ser/mod.rs:270-294`: `NamespacesBuilder::insert`.  The `debug_assert!` fails in debug builds (`dbg`). -/
def NsBuilder.insert (dbg : Bool) (b : NsBuilder) (pfx url : String) : Except Fault NsBuilder :=
  if dbg && pfx.toList.take 3 == "xml".toList then .error .panic
  else
    match b.get url with
    | none => .ok (b.set url { requested := pfx, assigned := none, required := true, needsPrefix := false })
    | some e => .ok (b.set url { e with requested := if e.required then e.requested else pfx, required := true })

/-- `ser/mod.rs:299-304`: `NamespacesBuilder::attribute`. -/
def NsBuilder.attribute (b : NsBuilder) (url : String) : NsBuilder :=
  match b.get url with
  | none => b
  | some e => b.set url { e with required := true, needsPrefix := true }

/-- `ser/mod.rs:354-359`: `Namespaces`. -/
structure Namespaces where
  byUrl : SMap NsEntry
  byPrefix : SMap String

/-- `format!("{}{}", prefix, i)` (`ser/mod.rs:330`). -/
def numbered (pfx : String) (i : Nat) : String := pfx ++ String.ofList (natDigits i)

/-- `ser/mod.rs:330-333`: the loop that tries numbers.  `i` is an `i32` in the code, which would overflow only after
2^31 collisions (`C28_search_short` bounds it by the number of mappings). -/
def searchPrefix (m : SMap String) (pfx url : String) : Nat → Nat → Except Fault (SMap String × String)
  | 0, _ => .error .fuel
  | fuel + 1, i =>
    match nsPut m (numbered pfx i) url with
    | (m', true) => .ok (m', numbered pfx i)
    | (_, false) => searchPrefix m pfx url fuel (i + 1)

/-- `ser/mod.rs:319-333`: the prefix of one required mapping. -/
def assignRequired (m : SMap String) (url : String) (e : NsEntry) : Except Fault (SMap String × String) :=
  let search : Except Fault (SMap String × String) :=
    if e.requested = "" then searchPrefix m "ns" url (m.length + 1) 1 else searchPrefix m e.requested url (m.length + 1) 2
  if !(e.needsPrefix && e.requested == "") then
    match nsPut m e.requested url with
    | (m', true) => .ok (m', e.requested)
    | (_, false) => search
  else search

/-- `ser/mod.rs:314-334`: the loop over required mappings. -/
def passRequired : SMap String → NsBuilder → Except Fault (SMap String × NsBuilder)
  | m, [] => .ok (m, [])
  | m, (url, e) :: l =>
    if e.required then
      match assignRequired m url e with
      | .error f => .error f
      | .ok (m, p) =>
        match passRequired m l with
        | .error f => .error f
        | .ok (m, l) => .ok (m, (url, { e with assigned := some p }) :: l)
    else
      match passRequired m l with
      | .error f => .error f
      | .ok (m, l) => .ok (m, (url, e) :: l)

/-- `ser/mod.rs:337-345`: the loop over inherited mappings. -/
def passInherited : SMap String → NsBuilder → SMap String × NsBuilder
  | m, [] => (m, [])
  | m, (url, e) :: l =>
    if e.required then
      match passInherited m l with
      | (m, l) => (m, (url, e) :: l)
    else
      match nsPut m e.requested url with
      | (m, true) =>
        match passInherited m l with
        | (m, l) => (m, (url, { e with assigned := some e.requested }) :: l)
      | (m, false) =>
        match passInherited m l with
        | (m, l) => (m, (url, e) :: l)

/-- `ser/mod.rs:307-351`: `NamespacesBuilder::finalize`. -/
def NsBuilder.finalize (b : NsBuilder) : Except Fault Namespaces :=
  match passRequired [] b with
  | .error f => .error f
  | .ok (m, b) =>
    match passInherited m b with
    | (m, b) => .ok { byUrl := b, byPrefix := m }

/-- `ser/mod.rs:362-383`: the loop of `Namespaces::child`, over the mappings in prefix order. -/
def childLoop (ns : String) : SMap String → Bool → NsBuilder → NsBuilder
  | [], _, child => child
  | (pfx, url) :: m, found, child =>
    let required := !found && url == ns
    childLoop ns m (found || required)
      (child.set url { requested := pfx, assigned := none, required := required, needsPrefix := false })

/-- `ser/mod.rs:362-383`: `Namespaces::child`. -/
def Namespaces.child (n : Namespaces) (ns : String) : NsBuilder := childLoop ns n.byPrefix false []

/-- `xml::name::Name` as given to the writer (`namespace` is unused there, `ser/mod.rs:410`). -/
structure WName where
  pfx : Option String
  loc : String
  deriving DecidableEq, Repr

/-- `ser/mod.rs:411-415`: an empty prefix is no prefix. -/
def WName.of (pfx loc : String) : WName := { pfx := if pfx = "" then none else some pfx, loc := loc }

/-- `ser/mod.rs:385-417`: `Namespaces::resolve_element`. -/
def Namespaces.resolveElement (n : Namespaces) (name : EName) : Except Fault WName :=
  let rest : Except Fault WName :=
    if name.ns = "" then
      if (n.byPrefix.get "").isNone then .ok (WName.of "" name.loc) else .error .panic
    else .error .panic
  match n.byUrl.get name.ns with
  | some e =>
    match e.assigned, e.required with
    | some p, true => .ok (WName.of p name.loc)
    | _, _ => rest
  | none => if name.ns = xmlNs then .ok (WName.of "xml" name.loc) else rest

/-- `ser/mod.rs:419-444`: `Namespaces::resolve_attribute`. -/
def Namespaces.resolveAttribute (n : Namespaces) (name : EName) : Except Fault WName :=
  if name.ns = "" then .ok (WName.of "" name.loc)
  else
    match n.byUrl.get name.ns with
    | some e =>
      match e.assigned with
      | some p => if p = "" then .error .panic else .ok (WName.of p name.loc)
      | none => .error .panic
    | none => if name.ns = xmlNs then .ok (WName.of "xml" name.loc) else .error .panic

end SX
