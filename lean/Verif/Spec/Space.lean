import Verif.Model.DeriveDe

/-
How much values hold, and how much there is in an input.  Uses data types of the model only.
-/
namespace SX.Spec.Space

/-- The bytes of text that a value of a text type holds. -/
def held : TVal → Nat
  | .str s => s.utf8ByteSize
  | .unknown s => s.utf8ByteSize
  | .variant _ v => held v
  | _ => 0

mutual
/-- How much a value holds: one for each value of a text type, struct, enum, `Option` and `Vec`, and the bytes of text. -/
def size : Val → Nat
  | .text v => 1 + held v
  | .strct l => 1 + sizes l
  | .enm _ none => 1
  | .enm _ (some v) => 1 + size v
  | .opt none => 1
  | .opt (some v) => 1 + size v
  | .vec l => 1 + sizes l
/-- All of a list. -/
def sizes : List Val → Nat
  | [] => 0
  | v :: l => size v + sizes l
end

/-- The bytes of the values of attributes. -/
def attrBytes : List XAttr → Nat
  | [] => 0
  | a :: l => a.value.utf8ByteSize + attrBytes l

/-- The bytes of text, CDATA and attribute values. -/
def bytes : List (XEvent × Pos) → Nat
  | [] => 0
  | (.startElement _ as _, _) :: l => attrBytes as + bytes l
  | (.characters s, _) :: l => s.utf8ByteSize + bytes l
  | (.cdata s, _) :: l => s.utf8ByteSize + bytes l
  | _ :: l => bytes l

/-- What a visitor for a derived type holds: a field not yet there counts `absent`. -/
def heldState (absent : Nat) : DState → Nat
  | .strct _ fs => 1 + (fs.map fun st => (st.cell.map size).getD absent).sum
  | .enm _ st => (st.cell.map size).getD absent

/-- What visitors may do: hold at most `each` more for each element, and the bytes of texts and attributes. -/
structure Frugal {σ : Type} (V : Visitor σ) (m : σ → Nat) (each : Nat) : Prop where
  attr : ∀ v n x v' r, V.onAttr v n x = .ok (v', r) → m v' ≤ m v + x.utf8ByteSize
  chars : ∀ v x p v' r, V.onChars v x p = .ok (v', r) → m v' ≤ m v + x.utf8ByteSize
  done : ∀ v i v' r, V.onElem v i = .done (.ok (v', r)) → m v' ≤ m v + each
  string : ∀ v i k, V.onElem v i = .readString k → (∀ e v' r, k (.error e) = .ok (v', r) → m v' ≤ m v + each) ∧
    (∀ x v' r, k (.ok x) = .ok (v', r) → m v' ≤ m v + each + x.utf8ByteSize)
  sub : ∀ v i sub k, V.onElem v i = .readTo sub k → m sub ≤ each ∧ ∀ sub' x v' r, k sub' x = .ok (v', r) → m v' ≤ m v + (each - m sub) + m sub'

/-- What an implementation may do: as `Frugal`, for the value. -/
structure FrugalDeser {σ α : Type} (D : Deser σ α) (m : σ → Nat) (a : α → Nat) (each : Nat) : Prop where
  done : ∀ i x, D i = .done (.ok (.ok x)) → a x ≤ each
  string : ∀ i k, D i = .readString k → (∀ e x, k (.error e) = .ok (.ok x) → a x ≤ each) ∧ ∀ t x, k (.ok t) = .ok (.ok x) → a x ≤ each + t.utf8ByteSize
  sub : ∀ i sub k, D i = .readTo sub k → m sub ≤ each ∧ ∀ sub' r x, k sub' r = .ok (.ok x) → a x ≤ (each - m sub) + m sub'

/-- A visitor that keeps count itself: what those above it hold, and the most that it knows was held at a time. -/
structure Counting (σ : Type) where
  v : σ
  above : Nat
  most : Nat

/-- Now it holds this. -/
def Counting.now {σ : Type} (m : σ → Nat) (t : Counting σ) (v : σ) : Counting σ := { t with v, most := max t.most (t.above + m v) }

/-- The bytes of a text, if there is one. -/
def textBytes {ε : Type} : Except ε String → Nat
  | .ok s => s.utf8ByteSize
  | .error _ => 0

/-- Any visitor, keeping count. -/
def counting {σ : Type} (V : Visitor σ) (m : σ → Nat) : Visitor (Counting σ) where
  onAttr t n x := (V.onAttr t.v n x).map fun (v, r) => (t.now m v, r)
  onChars t x p := (V.onChars t.v x p).map fun (v, r) => (t.now m v, r)
  onElem t i :=
    match V.onElem t.v i with
    | .done r => .done (r.map fun (v, r) => (t.now m v, r))
    | .readString k => .readString fun x => (k x).map fun (v, r) => ({ t with most := max t.most (t.above + m t.v + textBytes x) }.now m v, r)
    | .readTo sub k => .readTo { v := sub, above := t.above + m t.v, most := max t.most (t.above + m t.v + m sub) } fun sub x =>
        (k sub.v x).map fun (v, r) => ({ t with most := max t.most sub.most }.now m v, r)

/-- Any implementation, keeping count: the value with the count. -/
def countingDeser {σ α : Type} (D : Deser σ α) (m : σ → Nat) (a : α → Nat) : Deser (Counting σ) (α × Nat) := fun i =>
  match D i with
  | .done r => .done (r.map fun r => r.map fun x => (x, a x))
  | .readString k => .readString fun t => (k t).map fun r => r.map fun x => (x, max (textBytes t) (a x))
  | .readTo sub k => .readTo { v := sub, above := 0, most := m sub } fun sub r => (k sub.v r).map fun r => r.map fun x => (x, max sub.most (a x))

end SX.Spec.Space
