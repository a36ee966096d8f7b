import Verif.Proof.SpaceDerived
import Verif.Proof.SpaceLeast
import Verif.Props.Derive

/-
C96: how much is held while reading, and how much a value holds.  `Model/Space.lean` has the functions of the reader with the most that is held at a time by all visitors that are
at work and by `read_string`; they return what the functions of the model return.
-/
namespace SX
open Spec.Space Spec.Cost

/-- Whatever the input, and whether reading gives a value, an error or a panic: if visitors hold at most `each` more for each element, and the bytes that they are given, then at
no time more is held than `each` for each element of the input, and the bytes of its texts and attributes. -/
theorem C96_any {σ α : Type} (dbg : Bool) (V : Visitor σ) (m : σ → Nat) (D : Deser σ α) (a : α → Nat) (each : Nat) (hV : Frugal V m each)
    (hD : FrugalDeser D m a each) (i : Input) :
    (Space.read dbg V m D a i).2 = read dbg V D i ∧ (Space.read dbg V m D a i).1 ≤ elements i.items * each + bytes i.items ∧
      ∀ x, read dbg V D i = .ok (.ok x) → a x ≤ (Space.read dbg V m D a i).1 := by
  refine ⟨Space.read_value dbg V m D a i, ?_, ?_⟩
  · rw [← Space.weight_eq]
    exact (Space.read_held hV hD dbg i).1
  · intro x h
    rw [← Space.read_value dbg V m D a] at h
    simp only [Space.read] at h ⊢
    revert h
    cases root dbg i.start with
    | error f => intro h; cases h
    | ok q =>
      obtain ⟨_ | er, s⟩ := q
      · intro h; cases h
      · dsimp only
        generalize Space.runDeser dbg V m D _ er s = q
        obtain ⟨n, _ | ⟨_ | x, s'⟩⟩ := q
        · intro h; cases h
        · intro h; cases h
        · dsimp only
          cases endDoc dbg s' with
          | error f => intro h; cases h
          | ok r =>
            cases r with
            | error e => intro h; cases h
            | ok u => intro h; cases h; dsimp only; omega

/-- A visitor that keeps the texts it is given, and those of its children. -/
example : Frugal (σ := List String)
    { onAttr := fun v _ x => .ok (x :: v, .ok ()), onChars := fun v x _ => .ok (x :: v, .ok ()),
      onElem := fun v _ => .readTo [] fun sub _ => .ok (sub ++ v, .ok ()) }
    (fun v => (v.map String.utf8ByteSize).sum) 0 where
  attr := by intro v n x v' r h; cases h; simp; omega
  chars := by intro v x p v' r h; cases h; simp; omega
  done := by intro v i v' r h; cases h
  string := by intro v i k h; cases h
  sub := by intro v i sub k h; cases h; exact ⟨Nat.le_refl _, by intro sub' x v' r h; cases h; simp; omega⟩

/-- And the count is not too small: visitors that keep count themselves of what they, their children and those above them hold read the same value, and find no more than it says.
(Nothing is asked of the visitors here.) -/
theorem C96_counted {σ α : Type} (dbg : Bool) (V : Visitor σ) (m : σ → Nat) (D : Deser σ α) (a : α → Nat) (i : Input) (x : α)
    (h : read dbg V D i = .ok (.ok x)) :
    ∃ n, read dbg (counting V m) (countingDeser D m a) i = .ok (.ok (x, n)) ∧ n ≤ (Space.read dbg V m D a i).1 :=
  Space.read_least dbg V m D a i x h

/-- For derived types whose structs have at most `F` fields, with defaults of size at most `D`: at no time more is held than `1 + F * max 2 D` for each element of the input, and
the bytes of its texts and attributes.  In this count a field that is not there yet takes `max 2 D`. -/
theorem C96_peak (dbg : Bool) (env : Env) (ty : Ty) (F D : Nat) (hF : ∀ i, (env.strct i).fields.length ≤ F)
    (hD : ∀ i, ∀ f ∈ (env.strct i).fields, ∀ d, f.default = some d → size d ≤ D) (i : Input) :
    let t := Space.read dbg (derivedVisitor env) (heldState (max 2 D)) (fun _ => deserTy env ty) size i
    t.2 = readTy dbg env ty i ∧ t.1 ≤ elements i.items * (1 + max 1 F * max 2 D) + bytes i.items ∧
      ∀ v, readTy dbg env ty i = .ok (.ok v) → size v ≤ t.1 := by
  have hr : Space.Roomy env (max 2 D) (1 + max 1 F * max 2 D) := by
    refine ⟨by omega, fun i f hf d hd => Nat.le_trans (hD i f hf d hd) (by omega), ?_, ?_⟩
    · intro i
      exact Nat.add_le_add_left (Nat.mul_le_mul_right _ (Nat.le_trans (hF i) (by omega))) 1
    · have : 1 * max 2 D ≤ max 1 F * max 2 D := Nat.mul_le_mul_right _ (by omega)
      omega
  exact C96_any dbg _ _ _ _ _ (Space.derived_frugal hr) (Space.deserTy_frugal hr ty) i

theorem Ex.room : (∀ i, (Ex.env.strct i).fields.length ≤ 5) ∧ ∀ i, ∀ f ∈ (Ex.env.strct i).fields, ∀ d, f.default = some d → size d ≤ 2 := by
  constructor
  · intro i; simp only [Ex.env]; split <;> decide
  · intro i f hf d hd
    simp only [Ex.env] at hf
    split at hf
    · simp only [Ex.recFields, List.mem_cons, List.not_mem_nil, or_false] at hf
      rcases hf with rfl | rfl | rfl | rfl | rfl <;> simp at hd <;> (subst hd; decide)
    · simp only [Ex.subFields, List.mem_cons, List.not_mem_nil, or_false] at hf
      subst hf
      simp at hd
    · simp only [Ex.twoFields, List.mem_cons, List.not_mem_nil, or_false] at hf
      rcases hf with rfl | rfl <;> simp at hd
    · simp at hf

/-- The types and the document of C18: seven elements, seven bytes. -/
example : (Space.read true (derivedVisitor Ex.env) (heldState 2) (fun _ => deserTy Ex.env (.strct 0)) size Ex.recDoc.input).1 ≤ 7 * 11 + 7 ∧
    size Ex.recVal = 17 ∧ readTy true Ex.env (.strct 0) Ex.recDoc.input = .ok (.ok Ex.recVal) :=
  ⟨(C96_peak true Ex.env (.strct 0) 5 2 Ex.room.1 Ex.room.2 Ex.recDoc.input).2.1, rfl, Ex.recDoc_read⟩

/-- `<r id="7"><u:title>T</u:title><b><n>      true      </n></b></r>`: most is held at the end of `<n>`, by the visitors for `r` and `b` and the text. -/
def Ex.deepDoc : Spec.Doc := Ex.docOf [{ name := Ex.q "id", value := "7" }]
  (Ex.leaf (Ex.qp "u" "title") "T" (.elem (Ex.q "b") [] [] (Ex.p 1) (Ex.leaf (Ex.q "n") "      true      " .nil) (Ex.p 3) .nil))

example : (Space.read true (derivedVisitor Ex.env) (heldState 2) (fun _ => deserTy Ex.env (.strct 0)) size Ex.deepDoc.input).1 = (1 + 2 + 2 + 2 + 2 + 2) + (1 + 2) + 16 ∧
    ∃ v, readTy true Ex.env (.strct 0) Ex.deepDoc.input = .ok (.ok v) ∧ size v = 1 + 2 + 1 + 1 + 2 + (1 + (1 + 1)) := ⟨rfl, _, rfl, by decide⟩

/-- Here the visitors find just as much. -/
example : ∃ v, readTy true Ex.env (.strct 0) Ex.deepDoc.input = .ok (.ok v) ∧
    read true (counting (derivedVisitor Ex.env) (heldState 2)) (countingDeser (fun _ => deserTy Ex.env (.strct 0)) (heldState 2) size) Ex.deepDoc.input =
      .ok (.ok (v, (1 + 2 + 2 + 2 + 2 + 2) + (1 + 2) + 16)) := ⟨_, rfl, rfl⟩

/-- The same without the end: an error, with as much held. -/
example : (Space.read true (derivedVisitor Ex.env) (heldState 2) (fun _ => deserTy Ex.env (.strct 0)) size ⟨Ex.deepDoc.input.items.take 8, .err "unexpected end" (Ex.p 9), Ex.p 9⟩).1 =
    (1 + 2 + 2 + 2 + 2 + 2) + (1 + 2) + 16 := rfl

/-- So reading never makes a large value of a small document: its size is bounded by the number of elements and the bytes of text, for the types that are declared. -/
theorem C96_value (dbg : Bool) (env : Env) (ty : Ty) (F D : Nat) (hF : ∀ i, (env.strct i).fields.length ≤ F)
    (hD : ∀ i, ∀ f ∈ (env.strct i).fields, ∀ d, f.default = some d → size d ≤ D) (i : Input) (v : Val) (h : readTy dbg env ty i = .ok (.ok v)) :
    size v ≤ elements i.items * (1 + max 1 F * max 2 D) + bytes i.items := by
  obtain ⟨-, h1, h2⟩ := C96_peak dbg env ty F D hF hD i
  exact Nat.le_trans (h2 v h) h1

/-- A text value holds at most the text. -/
theorem C96_text (t : TextTy) (s : String) (v : TVal) (h : t.parse s = .ok v) : held v ≤ s.utf8ByteSize := Space.parse_held t s v h

example : ∃ v, TextTy.parse .string "abc" = .ok v ∧ held v = 3 := ⟨_, rfl, by decide⟩

end SX
