import Verif.Model.Writer

/-
What the serializer promises: balanced documents, sticky failures, and names that mean what was asked for by
the rules of "Namespaces in XML".
-/
namespace SX.Spec

/-! ### Balanced documents -/

/-- The content of a written element. -/
inductive WForest where
  | nil
  | elem (name : WName) (attrs : List (WName × String)) (ns : SMap String) (children rest : WForest)
  | chars (s : String) (rest : WForest)

/-- The events that write it. -/
def WForest.events : WForest → List WEvent
  | .nil => []
  | .elem n a ns c rest => .start n a ns :: (c.events ++ .stop :: rest.events)
  | .chars s rest => .chars s :: rest.events

/-- The events of one element. -/
def documentEvents (n : WName) (a : List (WName × String)) (ns : SMap String) (content : WForest) : List WEvent :=
  .start n a ns :: (content.events ++ [.stop])

/-- No `ElementWriter` is leaked with `std::mem::forget`. -/
def NoForget : {hs : List Handle} → Prog hs → Prop
  | _, .ret _ => True
  | _, .element _ k => NoForget k
  | _, .text _ k => ∀ r, NoForget (k r)
  | _, .namespace _ _ k => NoForget k
  | _, .attribute _ _ k => ∀ r, NoForget (k r)
  | _, .start ok fail => NoForget ok ∧ ∀ e, NoForget (fail e)
  | _, .finish k => ∀ r, NoForget (k r)
  | _, .dropBuilder k => NoForget k
  | _, .dropWriter k => NoForget k
  | _, .forgetBuilder k => NoForget k
  | _, .forgetWriter _ => False

/-! ### Failures -/

/-- The error a step brings about, if any. -/
def stepError : Step → Option SErr
  | .wrote _ _ => none
  | .failed _ e => some e
  | .abandoned e => some e

/-- The event a step wrote, if any. -/
def stepEvent : Step → Option WEvent
  | .wrote e _ => some e
  | _ => none

/-- After an earlier failure with `e`, a write fails with `e`. -/
def StuckWith (e : SErr) : Step → Prop
  | .wrote _ _ => False
  | .failed _ e' => e' = e
  | .abandoned _ => True

/-! ### Names -/

/-- The meaning of a prefix where the mappings `scopes` are in force (innermost first). -/
def lookupPrefix (scopes : List (SMap String)) (p : String) : Option String := scopes.findSome? fun m => m.get p

/-- "Namespaces in XML", section 6: the expanded name of an element; `none` if the prefix is not declared. -/
def resolveElem (scopes : List (SMap String)) (n : WName) : Option EName :=
  match n.pfx with
  | none => some { ns := (lookupPrefix scopes "").getD "", loc := n.loc }
  | some p => if p = "xml" then some { ns := xmlNs, loc := n.loc } else (lookupPrefix scopes p).map fun u => { ns := u, loc := n.loc }

/-- The same for attributes: without prefix they are in no namespace. -/
def resolveAttr (scopes : List (SMap String)) (n : WName) : Option EName :=
  match n.pfx with
  | none => some { ns := "", loc := n.loc }
  | some p => if p = "xml" then some { ns := xmlNs, loc := n.loc } else (lookupPrefix scopes p).map fun u => { ns := u, loc := n.loc }

/-- The mappings of the open elements after some events, innermost first. -/
def openScopes : List WEvent → List (SMap String) → List (SMap String)
  | [], st => st
  | .start _ _ ns :: l, st => openScopes l (ns :: st)
  | .chars _ :: l, st => openScopes l st
  | .stop :: l, st => openScopes l st.tail

/-- A mapping a program may ask for: not to the empty URL (which XML does not allow) and not with a prefix that
starts with `xml` (as documented; debug builds check it). -/
def MappingOk (dbg : Bool) (pfx url : String) : Prop := url ≠ "" ∧ (dbg = true ∨ pfx.toList.take 3 ≠ "xml".toList)

/-- All mappings a program asks for satisfy `M`. -/
def AttrProg.Mappings (M : String → String → Prop) : AttrProg → Prop
  | .ret _ => True
  | .namespace p u k => M p u ∧ Mappings M k
  | .attribute _ _ k => ∀ r, Mappings M (k r)

def Prog.Mappings (M : String → String → Prop) : {hs : List Handle} → Prog hs → Prop
  | _, .ret _ => True
  | _, .element _ k => Mappings M k
  | _, .text _ k => ∀ r, Mappings M (k r)
  | _, .namespace p u k => M p u ∧ Mappings M k
  | _, .attribute _ _ k => ∀ r, Mappings M (k r)
  | _, .start ok fail => Mappings M ok ∧ ∀ e, Mappings M (fail e)
  | _, .finish k => ∀ r, Mappings M (k r)
  | _, .dropBuilder k => Mappings M k
  | _, .dropWriter k => Mappings M k
  | _, .forgetBuilder k => Mappings M k
  | _, .forgetWriter k => Mappings M k

/-! ### Programs that declare the namespaces they use -/

/-- What is known about a handle: of a builder, its name, the URLs with an inherited mapping and the URLs
that are sure to be mapped; of a writer, the latter.  `dflt`: was a default namespace asked for, here or further out? -/
inductive HScope where
  | builder (name : EName) (inherited required : List String) (dflt : Bool)
  | writer (mapped : List String) (dflt : Bool)

/-- May `namespace(pfx, url)` be called? -/
def MayDeclare (pfx url : String) : Prop :=
  pfx.toList.take 3 ≠ "xml".toList ∧ url ≠ "" ∧ url ≠ xmlNs

/-- Every namespace used is declared: for attributes, before they are added (or on an enclosing element); for elements, until
they are started.  Elements in no namespace are only allowed where no default namespace was asked for. -/
def AttrProg.Declared : AttrProg → HScope → (HScope → Prop) → Prop
  | .ret (.ok ()), sc, K => K sc
  | .ret (.error _), _, _ => True
  | .namespace p u k, .builder n i r d, K => MayDeclare p u ∧ Declared k (.builder n i (u :: r) (d || p == "")) K
  | .attribute a _ k, .builder n i r d, K =>
    (a.ns = "" ∨ a.ns = xmlNs ∨ a.ns ∈ i ∨ a.ns ∈ r) ∧ ∀ res, Declared (k res) (.builder n i r d) K
  | _, .writer _ _, _ => False

/-- May a builder be started? -/
def MayStart (n : EName) (required : List String) (dflt : Bool) : Prop :=
  n.ns = xmlNs ∨ n.ns ∈ required ∨ (n.ns = "" ∧ dflt = false)

def Prog.Declared : {hs : List Handle} → Prog hs → List HScope → Prop
  | _, .ret _, _ => True
  | _, .element n k, .writer sc d :: st => Declared k (.builder n sc (if n.ns ∈ sc then [n.ns] else []) d :: .writer sc d :: st)
  | _, .text _ k, st => ∀ res, Declared (k res) st
  | _, .namespace p u k, .builder n i r d :: st => MayDeclare p u ∧ Declared k (.builder n i (u :: r) (d || p == "") :: st)
  | _, .attribute a _ k, .builder n i r d :: st =>
    (a.ns = "" ∨ a.ns = xmlNs ∨ a.ns ∈ i ∨ a.ns ∈ r) ∧ ∀ res, Declared (k res) (.builder n i r d :: st)
  | _, .start ok fail, .builder n _ r d :: st =>
    MayStart n r d ∧ Declared ok (.writer r d :: st) ∧ ∀ e, Declared (fail e) st
  | _, .finish k, _ :: st => ∀ res, Declared (k res) st
  | _, .dropBuilder k, _ :: st => Declared k st
  | _, .dropWriter k, _ :: st => Declared k st
  | _, .forgetBuilder k, _ :: st => Declared k st
  | _, .forgetWriter k, _ :: st => Declared k st
  | _, _, _ => False

/-- The same for all that `Serializer::to` does. -/
def DocumentDeclared (name : EName) (attrs : AttrProg) (children : Prog [.writer false]) : Prop :=
  AttrProg.Declared attrs (.builder name [] [] false) fun sc =>
    match sc with
    | .builder n _ r d => MayStart n r d ∧ Prog.Declared children [.writer r d]
    | .writer _ _ => False

/-! ### Builder calls -/

/-- A call on an `ElementBuilder`. -/
inductive BCall where
  | namespace (pfx url : String)
  | attribute (name : EName) (value : String)

/-- The attributes among the calls. -/
def attrCalls : List BCall → List (EName × String)
  | [] => []
  | .namespace _ _ :: l => attrCalls l
  | .attribute n v :: l => (n, v) :: attrCalls l

/-- The first attribute of each name. -/
def keepFirst : List (EName × String) → List (EName × String)
  | [] => []
  | a :: l => a :: (keepFirst l).filter fun b => b.1 ≠ a.1

/-- The results of attribute calls: an error, with the first value, if the name was given before. -/
def attrResults (before : List (EName × String)) : List (EName × String) → List (Except SErr Unit)
  | [] => []
  | a :: l =>
    (match before.find? fun b => b.1 == a.1 with
      | none => .ok ()
      | some old => .error (.duplicateAttribute a.1 old.2 a.2)) :: attrResults (before ++ [a]) l

/-- Performs the calls; the results of the attribute calls. -/
def runCalls (dbg : Bool) : List BCall → Builder → Except Fault (Builder × List (Except SErr Unit))
  | [], b => .ok (b, [])
  | .namespace p u :: l, b =>
    match b.namespace dbg p u with
    | .error f => .error f
    | .ok b => runCalls dbg l b
  | .attribute n v :: l, b =>
    match b.attribute n v with
    | .error f => .error f
    | .ok (b, r) =>
      match runCalls dbg l b with
      | .error f => .error f
      | .ok (b, rs) => .ok (b, r :: rs)

/-! ### The document a program asks for -/

/-- Events with expanded names. -/
inductive EEvent where
  | start (name : EName) (attrs : List (EName × String))
  | chars (s : String)
  | stop
  deriving DecidableEq, Repr

/-- The result of adding an attribute to `l`. -/
def addResult (l : List (EName × String)) (n : EName) (v : String) : Except SErr Unit :=
  match l.find? fun a => a.1 == n with
  | none => .ok ()
  | some old => .error (.duplicateAttribute n old.2 v)

/-- The attributes after adding one to `l`. -/
def addAttr (l : List (EName × String)) (n : EName) (v : String) : List (EName × String) :=
  if (l.find? fun a => a.1 == n).isSome then l else l ++ [(n, v)]

/-- The attributes `write_attributes` asks for, after `l`; `none` if it fails. -/
def AttrProg.asks : AttrProg → List (EName × String) → Option (List (EName × String))
  | .ret (.ok ()), l => some l
  | .ret (.error _), _ => none
  | .namespace _ _ k, l => asks k l
  | .attribute n v k, l => asks (k (addResult l n v)) (addAttr l n v)

/-- The content `write_children` asks for while nothing fails, and what it then returns; `none` if it abandons
an element.  `open'`: name and attributes of the builders it holds. -/
def Prog.asks : {hs : List Handle} → Prog hs → List (EName × List (EName × String)) → Option (List EEvent × Except SErr Unit)
  | _, .ret r, _ => some ([], r)
  | _, .element n k, open' => asks k ((n, []) :: open')
  | _, .text s k, open' => (asks (k (.ok ())) open').map fun x => (.chars s :: x.1, x.2)
  | _, .namespace _ _ k, open' => asks k open'
  | _, .attribute n v k, (m, l) :: open' => asks (k (addResult l n v)) ((m, addAttr l n v) :: open')
  | _, .start ok _, (m, l) :: open' => (asks ok open').map fun x => (.start m l :: x.1, x.2)
  | _, .finish k, open' => (asks (k (.ok ())) open').map fun x => (.stop :: x.1, x.2)
  | _, .forgetBuilder k, _ :: open' => asks k open'
  | _, .forgetWriter k, open' => asks k open'
  | _, .dropBuilder _, _ => none
  | _, .dropWriter _, _ => none
  | _, .attribute _ _ _, [] => none
  | _, .start _ _, [] => none
  | _, .forgetBuilder _, [] => none

/-- The document asked for by `Serializer::to`. -/
def documentAsked (name : EName) (attrs : AttrProg) (children : Prog [.writer false]) : Option (List EEvent) :=
  match AttrProg.asks attrs [] with
  | none => none
  | some l =>
    match Prog.asks children [] with
    | some (es, .ok ()) => some (.start name l :: (es ++ [.stop]))
    | _ => none

/-- The number of `ElementWriter`s that `write_children` leaks with `std::mem::forget`, while nothing fails.  `open'` as for
`Prog.asks`. -/
def Prog.leaks : {hs : List Handle} → Prog hs → List (EName × List (EName × String)) → Nat
  | _, .ret _, _ => 0
  | _, .element n k, open' => leaks k ((n, []) :: open')
  | _, .text _ k, open' => leaks (k (.ok ())) open'
  | _, .namespace _ _ k, open' => leaks k open'
  | _, .attribute n v k, (m, l) :: open' => leaks (k (addResult l n v)) ((m, addAttr l n v) :: open')
  | _, .start ok _, _ :: open' => leaks ok open'
  | _, .finish k, open' => leaks (k (.ok ())) open'
  | _, .forgetBuilder k, _ :: open' => leaks k open'
  | _, .forgetWriter k, open' => leaks k open' + 1
  | _, .dropBuilder _, _ => 0
  | _, .dropWriter _, _ => 0
  | _, .attribute _ _ _, [] => 0
  | _, .start _ _, [] => 0
  | _, .forgetBuilder _, [] => 0

/-- +1 for a start tag, -1 for an end tag. -/
def eventWeight : WEvent → Int
  | .start _ _ _ => 1
  | .chars _ => 0
  | .stop => -1

/-- The number of elements left open by some events. -/
def leftOpen (l : List WEvent) : Int := (l.map eventWeight).sum

/-- All or nothing. -/
def sequence {α : Type} : List (Option α) → Option (List α)
  | [] => some []
  | x :: l => match x, sequence l with
    | some a, some as => some (a :: as)
    | _, _ => none

/-- The document a reader sees that resolves names by the namespace rules. -/
def resolveEvents : List WEvent → List (SMap String) → Option (List EEvent)
  | [], _ => some []
  | .start q as ns :: l, scopes =>
    match resolveElem (ns :: scopes) q, sequence (as.map fun a => (resolveAttr (ns :: scopes) a.1).map fun n => (n, a.2)),
      resolveEvents l (ns :: scopes) with
    | some n, some as, some es => some (.start n as :: es)
    | _, _, _ => none
  | .chars s :: l, scopes => (resolveEvents l scopes).map fun es => .chars s :: es
  | .stop :: l, scopes => (resolveEvents l scopes.tail).map fun es => .stop :: es

end SX.Spec
