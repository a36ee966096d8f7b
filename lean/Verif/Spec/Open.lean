import Verif.Model.Open
import Verif.Spec.Names

/-
Histories of calls of a visitor, and what is promised for all of them.
-/
namespace SX.Spec.Open
open SX.Open

/-- What reading a child gives, whichever of `read_string` and `read_to` is called: arbitrary results, and an arbitrary
final state of the visitor passed to `read_to`. -/
structure Supply (σ : Type) where
  str : Except VErr String
  sub : σ
  res : Except VErr ReadToOk

/-- The rest of an implementation after its read of the child ended as given. -/
def give {σ ρ : Type} (s : Supply σ) : Action σ ρ → ρ
  | .done r => r
  | .readString k => k s.str
  | .readTo _ k => k s.sub s.res

/-- A call of a method of `ElementVisitor`. -/
inductive Call (σ : Type) where
  | attr (n : EName) (value : String)
  | chars (s : String) (pos : Pos)
  | elem (info : ElemInfo) (s : Supply σ)

/-- The visitor after a call, whether it returned `Ok`, `Err` or panicked. -/
def step {σ τ α : Type} (r : Raw σ τ α) (t : τ) : Call σ → Except Fault τ
  | .attr n value => (r.attr t n value).map Prod.fst
  | .chars s pos => (r.characters t s pos).map Prod.fst
  | .elem info s =>
    match r.element t info with
    | .error f => .error f
    | .ok (.back t) => .ok t
    | .ok (.take a) => (give s a).map Prod.fst

/-- The visitor after some calls. -/
def run {σ τ α : Type} (r : Raw σ τ α) : List (Call σ) → τ → Except Fault τ
  | [], t => .ok t
  | c :: cs, t =>
    match step r t c with
    | .error f => .error f
    | .ok t => run r cs t

/-- The contract of `RawDeserializeVisitor` (`de/mod.rs:709-720`): whatever is called on a new visitor, in whatever order and
however often, nothing undefined happens; and if `finalize` then returns `Ok` the memory is initialized. -/
def Sound {σ τ α : Type} (r : Raw σ τ α) : Prop :=
  ∀ h : List (Call σ), ∃ t, run r h r.new = .ok t ∧
    ∀ d, ∃ t' res, r.finalize t d = .ok (t', res) ∧ (res = .ok () → ∃ v, r.out t' = some v)

/-- The children of a given name in a history. -/
def elems {σ : Type} (n : EName) : List (Call σ) → List (ElemInfo × Supply σ)
  | [] => []
  | .elem info s :: cs => if info.name.expanded = n then (info, s) :: elems n cs else elems n cs
  | _ :: cs => elems n cs

/-- The values of attributes of a given name in a history. -/
def attrs {σ : Type} (n : EName) : List (Call σ) → List String
  | [] => []
  | .attr m value :: cs => if m = n then value :: attrs n cs else attrs n cs
  | _ :: cs => attrs n cs

/-- An element field after some children for it: the first whose `init` succeeds gives the value, each later one is
handed to `update`. -/
def afterElems {σ α : Type} (impl : FieldImpl σ α) : Option α → List (ElemInfo × Supply σ) → Option α
  | c, [] => c
  | none, (info, s) :: l =>
    match give s (impl.init info) with
    | .ok v => afterElems impl (some v) l
    | _ => afterElems impl none l
  | some v, (info, s) :: l => afterElems impl (some (give s (impl.update v info)).1) l

/-- An attribute field after some attributes for it: the first whose `init` succeeds gives the value. -/
def afterAttrs {α : Type} (impl : AttrImpl α) : List String → Option α
  | [] => none
  | v :: l =>
    match impl.init v with
    | .ok a => some a
    | _ => afterAttrs impl l

/-- What a field that was not found gets: the default if the field has one, else what `missing` says. -/
def absent {σ τ α : Type} (f : OField σ τ α) : Ret VErr α :=
  match f.default with
  | some (.ok d) => .ok d
  | some _ => .panic
  | none =>
    match f.kind with
    | .element impl => impl.missing f.name.expanded
    | .attribute impl => impl.missing f.name.expanded
    | .flatten _ => .panic

/-- What was read for a field before `finalize`. -/
def found {σ τ α : Type} (f : OField σ τ α) (h : List (Call σ)) : Option α :=
  match f.kind with
  | .element impl => afterElems impl none (elems f.name.expanded h)
  | .attribute impl => afterAttrs impl (attrs f.name.expanded h)
  | .flatten _ => none

/-- Element and attribute fields are distinguished by their names (the macro does not check this). -/
def Distinct {σ τ α : Type} (fields : List (OField σ τ α)) : Prop :=
  ∀ (p q : Nat) (f g : OField σ τ α), fields[p]? = some f → fields[q]? = some g → f.name.expanded = g.name.expanded →
    ((∃ i j, f.kind = .element i ∧ g.kind = .element j) ∨ (∃ i j, f.kind = .attribute i ∧ g.kind = .attribute j)) → p = q

/-- The flattened fields in declaration order, each with its visitor. -/
def flatOf {σ τ α : Type} : List (OField σ τ α) → List (OCell τ α) → List (Raw σ τ α × τ)
  | f :: fs, c :: cs =>
    match f.kind, c with
    | .flatten raw, .flat t => (raw, t) :: flatOf fs cs
    | _, _ => flatOf fs cs
  | _, _ => []

/-- Something is offered to visitors in turn: each either passes it on (perhaps changed) or keeps it; after that nobody else is
asked.  `R raw t x t' r`: the visitor in state `t`, offered `x`, is then in state `t'`, and passes on `x'` if `r` is `inl x'`; if `r` is
`inr y` it keeps it and answers `y`. -/
inductive Passed {σ τ α ι ρ : Type} (R : Raw σ τ α → τ → ι → τ → ι ⊕ ρ → Prop) :
    List (Raw σ τ α × τ) → ι → List τ → ι ⊕ ρ → Prop where
  | nobody (x : ι) : Passed R [] x [] (.inl x)
  | next {raw : Raw σ τ α} {t t' : τ} {x x' : ι} {l : List (Raw σ τ α × τ)} {ts : List τ} {r : ι ⊕ ρ}
      (h : R raw t x t' (.inl x')) (hl : Passed R l x' ts r) : Passed R ((raw, t) :: l) x (t' :: ts) r
  | keep {raw : Raw σ τ α} {t t' : τ} {x : ι} {y : ρ} {l : List (Raw σ τ α × τ)}
      (h : R raw t x t' (.inr y)) : Passed R ((raw, t) :: l) x (t' :: l.map Prod.snd) (.inr y)

/-- A visitor is offered a child. -/
def OffersElem {σ τ α : Type} (info : ElemInfo) (s : Supply σ) (raw : Raw σ τ α) (t : τ) (_ : Unit) (t' : τ) :
    Unit ⊕ Ret VErr Unit → Prop
  | .inl _ => raw.element t info = .ok (.back t')
  | .inr y => ∃ a, raw.element t info = .ok (.take a) ∧ give s a = .ok (t', y)

/-- A visitor is offered an attribute. -/
def OffersAttr {σ τ α : Type} (n : EName) (raw : Raw σ τ α) (t : τ) (v : String) (t' : τ) :
    String ⊕ Ret VErr Unit → Prop
  | .inl v' => raw.attr t n v = .ok (t', .ok (some v'))
  | .inr (.ok ()) => raw.attr t n v = .ok (t', .ok none)
  | .inr (.err e) => raw.attr t n v = .ok (t', .err e)
  | .inr .panic => raw.attr t n v = .ok (t', .panic)

/-- A visitor is offered text. -/
def OffersChars {σ τ α : Type} (pos : Pos) (raw : Raw σ τ α) (t : τ) (v : String) (t' : τ) :
    String ⊕ Ret DErr Unit → Prop
  | .inl v' => raw.characters t v pos = .ok (t', .ok (some v'))
  | .inr (.ok ()) => raw.characters t v pos = .ok (t', .ok none)
  | .inr (.err e) => raw.characters t v pos = .ok (t', .err e)
  | .inr .panic => raw.characters t v pos = .ok (t', .panic)

/-- The answer of the struct's visitor to what nobody or somebody kept. -/
def answer {ε : Type} : String ⊕ Ret ε Unit → Ret ε (Option String)
  | .inl v => .ok (some v)
  | .inr (.ok ()) => .ok none
  | .inr (.err e) => .err e
  | .inr .panic => .panic

/-- The element and attribute fields have the same memory. -/
def SamePlain {σ τ α : Type} (fields : List (OField σ τ α)) (fs fs' : List (OCell τ α)) : Prop :=
  ∀ (p : Nat) f, fields[p]? = some f → (∀ raw, f.kind ≠ .flatten raw) → fs'[p]? = fs[p]?

/-- The variant declared for a name. -/
def variantFor {σ α : Type} (vs : List (OVariant σ α)) (n : EName) : Option (Nat × OVariant σ α) :=
  match vs.findIdx? (fun v => decide (v.name.expanded = n)) with
  | none => none
  | some i => (vs[i]?).map fun v => (i, v)

/-- What an enum's visitor makes of a child, given what it holds: what it holds then, and its answer (`none`: the child is handed
back).  The first child that is a variant decides which one it is; a unit variant is there at once, a payload if its `init` succeeds.
Then children of that name go to `update`, other variants are errors, and children of unknown names are dropped. -/
def onChild {σ α : Type} (vs : List (OVariant σ α)) (held : Option (Nat × Option α)) (info : ElemInfo) (s : Supply σ) :
    Option (Nat × Option α) × Option (Ret VErr Unit) :=
  match held, variantFor vs info.name.expanded with
  | none, none => (none, none)
  | none, some (i, v) =>
    match v.payload with
    | none => (some (i, none), some (.ok ()))
    | some impl =>
      match give s (impl.init info) with
      | .ok p => (some (i, some p), some (.ok ()))
      | .err e => (none, some (.err e))
      | .panic => (none, some .panic)
  | some (i, p), none => (some (i, p), some (.ok ()))
  | some (i, p), some (j, v) =>
    if i = j then
      match v.payload, p with
      | some impl, some p => (some (i, some (give s (impl.update p info)).1), some (give s (impl.update p info)).2)
      | _, _ => (some (i, p), some (.ok ()))
    else
      match vs[i]? with
      | some w => (some (i, p), some (.err (.wrap (.unexpectedElement info.name.expanded w.name.expanded))))
      | none => (some (i, p), some .panic)

/-- What an enum's visitor holds after some calls. -/
def held {σ α : Type} (vs : List (OVariant σ α)) : Option (Nat × Option α) → List (Call σ) → Option (Nat × Option α)
  | c, [] => c
  | c, .elem info s :: cs => held vs (onChild vs c info s).1 cs
  | c, _ :: cs => held vs c cs

/-- Variants are distinguished by their names, and the table is one `find` can search (see C09). -/
structure Searchable {σ α : Type} (vs : List (OVariant σ α)) : Prop where
  distinct : ∀ (i j : Nat) (v w : OVariant σ α), vs[i]? = some v → vs[j]? = some w → v.name.expanded = w.name.expanded → i = j
  noneFirst : NoneFirst (vs.map OVariant.name)

end SX.Spec.Open
