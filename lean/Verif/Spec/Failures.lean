import Verif.Model.OpenUnwind

/-
When two programs differ at most in how they fail: in which errors they return, and in whether they return an error or panic.
-/
namespace SX.Spec.Failures
open SX.Open SX.UnwindDe SX.OpenUnwind

/-- What a call returned, if it did not fail. -/
def value {ε α : Type} : Ret ε α → Option α
  | .ok a => some a
  | _ => none

/-- Both return the same value, or both fail. -/
def Like {ε ε' α : Type} (r : Ret ε α) (r' : Ret ε' α) : Prop := value r = value r'

/-- The same for methods with `&mut self`: they also leave `self` the same, whether they fail or not. -/
def LikeMut {ε ε' τ α : Type} (x : τ × Ret ε α) (y : τ × Ret ε' α) : Prop := x.1 = y.1 ∧ Like x.2 y.2

/-- Results of the emitted code itself. -/
def LikeFault {β : Type} (R : β → β → Prop) : Except Fault β → Except Fault β → Prop
  | .error f, .error f' => f = f'
  | .ok x, .ok y => R x y
  | _, _ => False

/-- Implementations that do the same with an element and treat all failures of what they read alike. -/
def LikeP {σ ρ : Type} (R : ρ → ρ → Prop) : PAction σ ρ → PAction σ ρ → Prop
  | .done r, .done r' => R r r'
  | .readString k, .readString k' => ∀ x, R (k x) (k' x)
  | .readTo sub k, .readTo sub' k' => sub = sub' ∧ ∀ s r r', Like r r' → R (k s r) (k' s r')
  | _, _ => False

/-- The same for visitors. -/
structure LikeVisitors {σ : Type} (V V' : PVisitor σ) : Prop where
  attr : ∀ v n s, LikeMut (V.onAttr v n s) (V'.onAttr v n s)
  chars : ∀ v s p, LikeMut (V.onChars v s p) (V'.onChars v s p)
  elem : ∀ v i, LikeP LikeMut (V.onElem v i) (V'.onElem v i)

/-- What an implementation is told of a read that it started: with the flag, that it panicked. -/
def told (panicked : Bool) (r : Except VErr ReadToOk) : Option ReadToOk :=
  match panicked, r with
  | false, .ok x => some x
  | _, _ => none

/-- As `LikeP`, for implementations as in `Model/OpenUnwind.lean`. -/
def LikeAct {σ ρ : Type} (R : ρ → ρ → Prop) : Action (σ × Bool) ρ → Action (σ × Bool) ρ → Prop
  | .done r, .done r' => R r r'
  | .readString k, .readString k' => ∀ x, R (k x) (k' x)
  | .readTo s k, .readTo s' k' => s.1 = s'.1 ∧ ∀ sub b b' r r', told b r = told b' r' → R (k (sub, b) r) (k' (sub, b') r')
  | _, _ => False

/-- Answers to children. -/
def LikeOffer {σ τ' : Type} : Offer (σ × Bool) τ' → Offer (σ × Bool) τ' → Prop
  | .back t, .back t' => t = t'
  | .take a, .take a' => LikeAct (LikeFault LikeMut) a a'
  | _, _ => False

/-- Types of visitors. -/
structure LikeRaw {σ τ' α' : Type} (raw raw' : Raw (σ × Bool) τ' α') : Prop where
  new : raw.new = raw'.new
  attr : ∀ t n s, LikeFault LikeMut (raw.attr t n s) (raw'.attr t n s)
  characters : ∀ t s p, LikeFault LikeMut (raw.characters t s p) (raw'.characters t s p)
  elem : ∀ t info, LikeFault LikeOffer (raw.element t info) (raw'.element t info)
  finalize : ∀ t d, LikeFault LikeMut (raw.finalize t d) (raw'.finalize t d)
  out : raw.out = raw'.out

/-- Implementations of `DeserializeElementField`. -/
structure LikeImpl {σ α' : Type} (impl impl' : FieldImpl (σ × Bool) α') : Prop where
  init : ∀ info, LikeAct Like (impl.init info) (impl'.init info)
  update : ∀ v info, LikeAct LikeMut (impl.update v info) (impl'.update v info)
  missing : ∀ n, Like (impl.missing n) (impl'.missing n)

/-- Implementations of `DeserializeAttrField`. -/
structure LikeAttr {α' : Type} (impl impl' : AttrImpl α') : Prop where
  init : ∀ s, Like (impl.init s) (impl'.init s)
  missing : ∀ n, Like (impl.missing n) (impl'.missing n)

/-- Modes of fields. -/
def LikeKind {σ τ' α' : Type} : OKind (σ × Bool) τ' α' → OKind (σ × Bool) τ' α' → Prop
  | .element impl, .element impl' => LikeImpl impl impl'
  | .attribute impl, .attribute impl' => LikeAttr impl impl'
  | .flatten raw, .flatten raw' => LikeRaw raw raw'
  | _, _ => False

/-- Fields. -/
def LikeField {σ τ' α' : Type} (f f' : OField (σ × Bool) τ' α') : Prop := f.name = f'.name ∧ f.default = f'.default ∧ LikeKind f.kind f'.kind

/-- Fields of structs, one by one. -/
def LikeFields {σ τ' α' : Type} : List (OField (σ × Bool) τ' α') → List (OField (σ × Bool) τ' α') → Prop
  | [], [] => True
  | f :: fs, f' :: fs' => LikeField f f' ∧ LikeFields fs fs'
  | _, _ => False

/-- Variants of enums, one by one. -/
def LikeVariants {σ α' : Type} : List (OVariant (σ × Bool) α') → List (OVariant (σ × Bool) α') → Prop
  | [], [] => True
  | v :: vs, v' :: vs' =>
    (v.name = v'.name ∧ match v.payload, v'.payload with
      | none, none => True
      | some impl, some impl' => LikeImpl impl impl'
      | _, _ => False) ∧ LikeVariants vs vs'
  | _, _ => False

/-- A result with the error `e` in place of a panic. -/
def noPanic {ε α : Type} (e : ε) : Ret ε α → Ret ε α
  | .panic => .err e
  | r => r

/-- Visitors that return errors where others panic. -/
def erring {σ : Type} (e : VErr) (d : DErr) (V : PVisitor σ) : PVisitor σ where
  onAttr v n s := ((V.onAttr v n s).1, noPanic e (V.onAttr v n s).2)
  onChars v s p := ((V.onChars v s p).1, noPanic d (V.onChars v s p).2)
  onElem v i :=
    match V.onElem v i with
    | .done r => .done (r.1, noPanic e r.2)
    | .readString k => .readString fun x => ((k x).1, noPanic e (k x).2)
    | .readTo sub k => .readTo sub fun s r => ((k s r).1, noPanic e (k s r).2)

/-- The same for `deserialize`. -/
def erringD {σ α : Type} (e : VErr) (D : PDeser σ α) : PDeser σ α := fun i =>
  match D i with
  | .done r => .done (noPanic e r)
  | .readString k => .readString fun x => noPanic e (k x)
  | .readTo sub k => .readTo sub fun s r => noPanic e (k s r)

end SX.Spec.Failures
