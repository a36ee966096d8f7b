import Verif.Model.OpenUnwind
import Verif.Spec.Open
import Verif.Spec.UnwindDe

/-
When two programs do the same as long as their visitors are as reading can leave them.
-/
namespace SX.Spec.OpenUnwind
open SX.Open SX.UnwindDe SX.OpenUnwind Spec.Open

/-- Two actions that do the same if the visitor they start, which has the invariant of some kind, still has it afterwards; what they return is good. -/
def Same {κ σ ρ : Type} (I : κ → σ → Prop) (good : ρ → Prop) : PAction σ ρ → PAction σ ρ → Prop
  | .done r, .done r' => r = r' ∧ good r
  | .readString k, .readString k' => ∀ x, k x = k' x ∧ good (k x)
  | .readTo sub k, .readTo sub' k' => sub = sub' ∧ ∃ kind, I kind sub ∧ ∀ s r, I kind s → k s r = k' s r ∧ good (k s r)
  | _, _ => False

/-- Two implementations of visitors that do the same to visitors with the invariant of their kind, and keep it. -/
structure SameVisitors {κ σ : Type} (I : κ → σ → Prop) (V V' : PVisitor σ) : Prop where
  attr : ∀ kind v n s, I kind v → V.onAttr v n s = V'.onAttr v n s ∧ I kind (V.onAttr v n s).1
  chars : ∀ kind v s p, I kind v → V.onChars v s p = V'.onChars v s p ∧ I kind (V.onChars v s p).1
  elem : ∀ kind v i, I kind v → Same I (fun r => I kind r.1) (V.onElem v i) (V'.onElem v i)

variable {κ : Type} {τ α : κ → Type}

/-- A visitor as it can be after any calls of its methods. -/
def Reached (raw : (k : κ) → Raw (States τ × Bool) (τ k) (α k)) (k : κ) (s : States τ) : Prop :=
  ∃ t h, s = ⟨k, t⟩ ∧ run (raw k) h (raw k).new = .ok t

/-- Actions that do the same if the visitor they start is, afterwards, one that calls of its methods can lead to. -/
def Alike {ρ : Type} (I : κ → States τ → Prop) : Action (States τ × Bool) ρ → Action (States τ × Bool) ρ → Prop
  | .done r, .done r' => r = r'
  | .readString k, .readString k' => ∀ x, k x = k' x
  | .readTo s k, .readTo s' k' => s = s' ∧ ∃ kind, I kind s.1 ∧ ∀ sub r, I kind sub.1 → k sub r = k' sub r
  | _, _ => False

/-- Answers to children. -/
def AlikeOffer {τ' : Type} (I : κ → States τ → Prop) : Except Fault (Offer (States τ × Bool) τ') → Except Fault (Offer (States τ × Bool) τ') → Prop
  | .error f, .error f' => f = f'
  | .ok (.back t), .ok (.back t') => t = t'
  | .ok (.take a), .ok (.take a') => Alike I a a'
  | _, _ => False

/-- Types of visitors that differ at most in what their actions do with unreachable visitors. -/
structure AlikeRaw {τ' α' : Type} (I : κ → States τ → Prop) (raw raw' : Raw (States τ × Bool) τ' α') : Prop where
  ends : ends raw = ends raw'
  attr : raw.attr = raw'.attr
  characters : raw.characters = raw'.characters
  elem : ∀ t info, AlikeOffer I (raw.element t info) (raw'.element t info)

/-- Implementations of `DeserializeElementField`. -/
structure AlikeImpl {α' : Type} (I : κ → States τ → Prop) (impl impl' : FieldImpl (States τ × Bool) α') : Prop where
  init : ∀ info, Alike I (impl.init info) (impl'.init info)
  update : ∀ v info, Alike I (impl.update v info) (impl'.update v info)
  missing : impl.missing = impl'.missing

/-- Modes of fields. -/
def AlikeKind {τ' α' : Type} (I : κ → States τ → Prop) : OKind (States τ × Bool) τ' α' → OKind (States τ × Bool) τ' α' → Prop
  | .element impl, .element impl' => AlikeImpl I impl impl'
  | .attribute impl, .attribute impl' => impl = impl'
  | .flatten raw, .flatten raw' => AlikeRaw I raw raw'
  | _, _ => False

/-- Fields. -/
def AlikeField {τ' α' : Type} (I : κ → States τ → Prop) (f f' : OField (States τ × Bool) τ' α') : Prop :=
  f.name = f'.name ∧ f.default = f'.default ∧ AlikeKind I f.kind f'.kind

/-- Fields of structs, one by one. -/
def AlikeFields {τ' α' : Type} (I : κ → States τ → Prop) : List (OField (States τ × Bool) τ' α') → List (OField (States τ × Bool) τ' α') → Prop
  | [], [] => True
  | f :: fs, f' :: fs' => AlikeField I f f' ∧ AlikeFields I fs fs'
  | _, _ => False

/-- Variants of enums, one by one. -/
def AlikeVariants {α' : Type} (I : κ → States τ → Prop) : List (OVariant (States τ × Bool) α') → List (OVariant (States τ × Bool) α') → Prop
  | [], [] => True
  | v :: vs, v' :: vs' =>
    (v.name = v'.name ∧ match v.payload, v'.payload with
      | none, none => True
      | some impl, some impl' => AlikeImpl I impl impl'
      | _, _ => False) ∧ AlikeVariants I vs vs'
  | _, _ => False

end SX.Spec.OpenUnwind
