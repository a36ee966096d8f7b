import Verif.Spec.Failures

/-
When a program does the same as another, but returns an error of a kind that nothing else returns, where the other panics.
-/
namespace SX.Spec.PanicAs
open SX.Open SX.UnwindDe SX.OpenUnwind Spec.Failures

/-- The error returned in place of a panic. -/
class Mark where
  msg : String

/-- Types of errors, and which of them stand for a panic. -/
class Stands (ε : Type) where
  stands : ε → Prop

export Stands (stands)

instance [Mark] : Stands DErr := ⟨fun d => d = .user Mark.msg⟩

/-- Wherever it happened. -/
instance [Mark] : Stands Error := ⟨fun E => ∃ d, E.kind = .deserializer d ∧ stands d⟩

instance [Mark] : Stands VErr := ⟨fun e =>
  match e with
  | .wrap d => stands d
  | .propagate E => stands E⟩

/-- The same result; the error in place of a panic. -/
inductive Sim {ε α : Type} [Stands ε] : Ret ε α → Ret ε α → Prop
  | ok (a : α) : Sim (.ok a) (.ok a)
  | err (e : ε) : ¬ stands e → Sim (.err e) (.err e)
  | panic (e : ε) : stands e → Sim .panic (.err e)

/-- The same for methods with `&mut self`: they also leave `self` the same. -/
def SimMut {ε τ α : Type} [Stands ε] (x y : τ × Ret ε α) : Prop := x.1 = y.1 ∧ Sim x.2 y.2

variable [Mark]

/-- The text of an element, or an error that is no panic's. -/
def Plain {β : Type} : Except VErr β → Prop
  | .ok _ => True
  | .error e => ¬ stands e

/-- Implementations that do the same with an element, and treat the error like the panic. -/
def SimP {σ ρ : Type} (R : ρ → ρ → Prop) : PAction σ ρ → PAction σ ρ → Prop
  | .done r, .done r' => R r r'
  | .readString k, .readString k' => ∀ x, Plain x → R (k x) (k' x)
  | .readTo sub k, .readTo sub' k' => sub = sub' ∧ ∀ s r r', Sim r r' → R (k s r) (k' s r')
  | _, _ => False

/-- The same for visitors. -/
structure SimVisitors {σ : Type} (V V' : PVisitor σ) : Prop where
  attr : ∀ v n s, SimMut (V.onAttr v n s) (V'.onAttr v n s)
  chars : ∀ v s p, SimMut (V.onChars v s p) (V'.onChars v s p)
  elem : ∀ v i, SimP SimMut (V.onElem v i) (V'.onElem v i)

/-- What an implementation is told of a read that it started: with the flag, that it panicked. -/
def toldRet (panicked : Bool) (r : Except VErr ReadToOk) : Ret VErr ReadToOk :=
  match panicked, r with
  | true, _ => .panic
  | false, .ok x => .ok x
  | false, .error e => .err e

/-- As `SimP`, for implementations as in `Model/OpenUnwind.lean`. -/
def SimAct {σ ρ : Type} (R : ρ → ρ → Prop) : Action (σ × Bool) ρ → Action (σ × Bool) ρ → Prop
  | .done r, .done r' => R r r'
  | .readString k, .readString k' => ∀ x, Plain x → R (k x) (k' x)
  | .readTo s k, .readTo s' k' =>
    s.1 = s'.1 ∧ ∀ sub b b' r r', Sim (toldRet b r) (toldRet b' r') → R (k (sub, b) r) (k' (sub, b') r')
  | _, _ => False

/-- Answers to children. -/
def SimOffer {σ τ' : Type} : Offer (σ × Bool) τ' → Offer (σ × Bool) τ' → Prop
  | .back t, .back t' => t = t'
  | .take a, .take a' => SimAct (LikeFault SimMut) a a'
  | _, _ => False

/-- Types of visitors.  (Default functions are not told of: they return no errors, and are taken not to panic.) -/
structure SimRaw {σ τ' α' : Type} (raw raw' : Raw (σ × Bool) τ' α') : Prop where
  new : raw.new = raw'.new
  attr : ∀ t n s, LikeFault SimMut (raw.attr t n s) (raw'.attr t n s)
  characters : ∀ t s p, LikeFault SimMut (raw.characters t s p) (raw'.characters t s p)
  elem : ∀ t info, LikeFault SimOffer (raw.element t info) (raw'.element t info)
  finalize : ∀ t d, d ≠ some .panic → LikeFault SimMut (raw.finalize t d) (raw'.finalize t d)
  out : raw.out = raw'.out

/-- Implementations of `DeserializeElementField`. -/
structure SimImpl {σ α' : Type} (impl impl' : FieldImpl (σ × Bool) α') : Prop where
  init : ∀ info, SimAct Sim (impl.init info) (impl'.init info)
  update : ∀ v info, SimAct SimMut (impl.update v info) (impl'.update v info)
  missing : ∀ n, Sim (impl.missing n) (impl'.missing n)

/-- Implementations of `DeserializeAttrField`. -/
structure SimAttr {α' : Type} (impl impl' : AttrImpl α') : Prop where
  init : ∀ s, Sim (impl.init s) (impl'.init s)
  missing : ∀ n, Sim (impl.missing n) (impl'.missing n)

/-- Modes of fields. -/
def SimKind {σ τ' α' : Type} : OKind (σ × Bool) τ' α' → OKind (σ × Bool) τ' α' → Prop
  | .element impl, .element impl' => SimImpl impl impl'
  | .attribute impl, .attribute impl' => SimAttr impl impl'
  | .flatten raw, .flatten raw' => SimRaw raw raw'
  | _, _ => False

/-- Fields. -/
def SimField {σ τ' α' : Type} (f f' : OField (σ × Bool) τ' α') : Prop :=
  f.name = f'.name ∧ (f.default = f'.default ∧ f.default ≠ some .panic) ∧ SimKind f.kind f'.kind

/-- Fields of structs, one by one. -/
def SimFields {σ τ' α' : Type} : List (OField (σ × Bool) τ' α') → List (OField (σ × Bool) τ' α') → Prop
  | [], [] => True
  | f :: fs, f' :: fs' => SimField f f' ∧ SimFields fs fs'
  | _, _ => False

/-- Variants of enums, one by one. -/
def SimVariants {σ α' : Type} : List (OVariant (σ × Bool) α') → List (OVariant (σ × Bool) α') → Prop
  | [], [] => True
  | v :: vs, v' :: vs' =>
    (v.name = v'.name ∧ match v.payload, v'.payload with
      | none, none => True
      | some impl, some impl' => SimImpl impl impl'
      | _, _ => False) ∧ SimVariants vs vs'
  | _, _ => False

/-- An implementation that returns the error where another panics. -/
def markImpl {σ α' : Type} (impl : FieldImpl σ α') : FieldImpl σ α' where
  init info := (impl.init info).map (noPanic (.wrap (.user Mark.msg)))
  update v info := (impl.update v info).map fun x => (x.1, noPanic (.wrap (.user Mark.msg)) x.2)
  missing n := noPanic (.wrap (.user Mark.msg)) (impl.missing n)

/-- What happens where something undefined happens: anything, but the same, and the error in place of a panic. -/
structure SimJunk {κ : Type} {τ α : κ → Type} (junk junk' : Junk τ α) : Prop where
  attr : SimMut junk.attr junk'.attr
  chars : SimMut junk.chars junk'.chars
  elem : SimMut junk.elem junk'.elem
  value : ∀ k, Sim (junk.value k) (junk'.value k)

end SX.Spec.PanicAs
