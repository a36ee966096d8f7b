import Verif.Spec.UnwindDe
import Verif.Spec.Stream
import Verif.Proof.ReaderTotal

/-
A panic is an error with a flag: visitors that panic and catch panics, as visitors of `Model/Reader.lean`.
-/
namespace SX.UnwindDe
open SX.Open SX.Spec.UnwindDe

/-- The error that stands for a panic. -/
def cover : VErr := .wrap (.user "")

/-- A result as one of a flagged visitor. -/
def enc {σ : Type} (r : σ × Ret VErr Unit) : Except Fault ((σ × Bool) × Except VErr Unit) :=
  match r with
  | (v, .ok ()) => .ok ((v, false), .ok ())
  | (v, .err e) => .ok ((v, false), .error e)
  | (v, .panic) => .ok ((v, true), .error cover)

def dec {ρ : Type} (b : Bool) (r : Except VErr ρ) : Ret VErr ρ := if b then .panic else retOf r

/-- The flagged visitor. -/
def flag {σ : Type} (V : PVisitor σ) : Visitor (σ × Bool) where
  onAttr v n s := enc (V.onAttr v.1 n s)
  onChars v s p :=
    match V.onChars v.1 s p with
    | (v, .ok ()) => .ok ((v, false), .ok ())
    | (v, .err e) => .ok ((v, false), .error e)
    | (v, .panic) => .ok ((v, true), .error (.user ""))
  onElem v i :=
    match V.onElem v.1 i with
    | .done r => .done (enc r)
    | .readString k => .readString fun r => enc (k r)
    | .readTo sub k => .readTo (sub, false) fun sub r => enc (k sub.1 (dec sub.2 r))

theorem flag_onAttr {σ : Type} (V : PVisitor σ) (v : σ × Bool) (n : EName) (s : String) : (flag V).onAttr v n s = enc (V.onAttr v.1 n s) := rfl

theorem flag_onChars {σ : Type} (V : PVisitor σ) (v : σ × Bool) (s : String) (p : Pos) : (flag V).onChars v s p =
    match V.onChars v.1 s p with
    | (v, .ok ()) => .ok ((v, false), .ok ())
    | (v, .err e) => .ok ((v, false), .error e)
    | (v, .panic) => .ok ((v, true), .error (.user "")) := rfl

theorem flag_onElem {σ : Type} (V : PVisitor σ) (v : σ × Bool) (i : ElemInfo) : (flag V).onElem v i =
    match V.onElem v.1 i with
    | .done r => .done (enc r)
    | .readString k => .readString fun r => enc (k r)
    | .readTo sub k => .readTo (sub, false) fun sub r => enc (k sub.1 (dec sub.2 r)) := rfl

/-- A result of an implementation; `p` stands for a panic. -/
def encD {α : Type} (p : Except Fault (Except VErr α)) : Ret VErr α → Except Fault (Except VErr α)
  | .ok a => .ok (.ok a)
  | .err e => .ok (.error e)
  | .panic => p

def flagD {σ α : Type} (p : Except Fault (Except VErr α)) (D : PDeser σ α) : Deser (σ × Bool) α := fun i =>
  match D i with
  | .done r => .done (encD p r)
  | .readString k => .readString fun r => encD p (k r)
  | .readTo sub k => .readTo (sub, false) fun sub r => encD p (k sub.1 (dec sub.2 r))

/-- `x` is the result `y` with the flag. -/
def Coded {σ ε ρ : Type} (x : (σ × Bool) × Except ε ρ) : σ × Ret ε ρ → Prop
  | (v, .ok r) => x = ((v, false), .ok r)
  | (v, .err e) => x = ((v, false), .error e)
  | (v, .panic) => ∃ e, x = ((v, true), .error e)

/-- The same for a whole run. -/
def CodedR {σ ρ : Type} (x : Except Fault ((σ × Bool) × Except VErr ρ × RState)) : Except Fault (σ × Ret VErr ρ × RState) → Prop
  | .error f => x = .error f
  | .ok (v, r, s) => ∃ y, x = .ok (y.1, y.2, s) ∧ Coded y (v, r)

theorem visitAttrs_flag {σ : Type} (V : PVisitor σ) (stack : List StackElem) (pos : Pos) (l : List XAttr) (v : σ) :
    ∃ x, SX.visitAttrs (flag V) stack pos l (v, false) = .ok x ∧ Coded x (visitAttrs V stack pos l v) := by
  induction l generalizing v with
  | nil => exact ⟨_, rfl, rfl⟩
  | cons a l ih =>
    simp only [SX.visitAttrs, visitAttrs, flag_onAttr]
    rcases V.onAttr v a.name.expanded a.value with ⟨v1, _ | e | _⟩
    · exact ih v1
    · exact ⟨_, rfl, rfl⟩
    · exact ⟨_, rfl, _, rfl⟩

theorem readLoop_flag {σ : Type} (dbg : Bool) (V : PVisitor σ) (fuel : Nat) (er : ElemReader) (v : σ) (s : RState) :
    CodedR (SX.readLoop dbg (flag V) fuel er (v, false) s) (readLoop dbg V fuel er v s) := by
  induction fuel generalizing er v s with
  | zero => rfl
  | succ fuel ih =>
    unfold readLoop SX.readLoop
    by_cases hg : (dbg && er.stackPos + 1 != s.stack.length) = true
    · simp only [hg, ↓reduceIte]; rfl
    · simp only [hg, Bool.false_eq_true, ↓reduceIte]
      rcases hn : next dbg s with f | ⟨e | ⟨ev, pos⟩, s1⟩
      · rfl
      · exact ⟨((v, false), _), rfl, rfl⟩
      · cases ev with
        | end_ name => exact ⟨((v, false), _), rfl, rfl⟩
        | chars str =>
          simp only [flag_onChars]
          rcases V.onChars v str pos with ⟨v1, _ | e | _⟩
          · exact ih er v1 s1
          · exact ⟨((v1, false), _), rfl, rfl⟩
          · exact ⟨((v1, true), _), rfl, _, rfl⟩
        | start attrs ns =>
          simp only
          rcases hs : s1.stack[er.stackPos + 1]? with _ | elem
          · rfl
          · simp only [flag_onElem]
            cases V.onElem v { name := elem.name, ns := ns, depth := er.stackPos + 1 + 1 } with
            | done y =>
              rcases y with ⟨v1, _ | e | _⟩
              · simp only [enc]
                rcases returnToDepth dbg (er.stackPos + 1) s1 with f | ⟨e | _, s3⟩
                · rfl
                · exact ⟨((v1, false), _), rfl, rfl⟩
                · exact ih er v1 s3
              · exact ⟨((v1, false), _), rfl, rfl⟩
              · exact ⟨((v1, true), _), rfl, _, rfl⟩
            | readString k =>
              simp only
              rcases readString dbg { ns, attrs, stackPos := er.stackPos + 1 } fuel "" s1 with f | ⟨r, s2⟩
              · rfl
              · simp only
                rcases (k r) with ⟨v1, _ | e | _⟩
                · simp only [enc]
                  rcases returnToDepth dbg (er.stackPos + 1) s2 with f | ⟨e | _, s3⟩
                  · rfl
                  · exact ⟨((v1, false), _), rfl, rfl⟩
                  · exact ih er v1 s3
                · exact ⟨((v1, false), _), rfl, rfl⟩
                · exact ⟨((v1, true), _), rfl, _, rfl⟩
            | readTo sub k =>
              simp only
              obtain ⟨x, hx, hc⟩ := visitAttrs_flag V s1.stack elem.pos attrs sub
              rw [hx]
              revert hc
              rcases visitAttrs V s1.stack elem.pos attrs sub with ⟨sub1, _ | e | _⟩ <;> intro hc
              · cases hc
                simp only
                have := ih { ns, attrs, stackPos := er.stackPos + 1 } sub1 s1
                revert this
                rcases readLoop dbg V fuel { ns, attrs, stackPos := er.stackPos + 1 } sub1 s1 with f | ⟨sub2, r, s2⟩
                · intro this
                  rw [show SX.readLoop dbg (flag V) fuel { ns, attrs, stackPos := er.stackPos + 1 } (sub1, false) s1 = .error f from this]
                  rfl
                · rintro ⟨y, hy, hd⟩
                  rw [hy]
                  have : k y.1.1 (dec y.1.2 y.2) = k sub2 r := by
                    rcases r with _ | e | _
                    · cases hd; rfl
                    · cases hd; rfl
                    · obtain ⟨e, rfl⟩ := hd; rfl
                  simp only [this]
                  rcases (k sub2 r) with ⟨v1, _ | e | _⟩
                  · simp only [enc]
                    rcases returnToDepth dbg (er.stackPos + 1) s2 with f | ⟨e | _, s3⟩
                    · rfl
                    · exact ⟨((v1, false), _), rfl, rfl⟩
                    · exact ih er v1 s3
                  · exact ⟨((v1, false), _), rfl, rfl⟩
                  · exact ⟨((v1, true), _), rfl, _, rfl⟩
              · cases hc
                simp only [dec, retOf, Bool.false_eq_true, ↓reduceIte]
                rcases (k sub1 (.err e)) with ⟨v1, _ | e | _⟩
                · simp only [enc]
                  rcases returnToDepth dbg (er.stackPos + 1) s1 with f | ⟨e | _, s3⟩
                  · rfl
                  · exact ⟨((v1, false), _), rfl, rfl⟩
                  · exact ih er v1 s3
                · exact ⟨((v1, false), _), rfl, rfl⟩
                · exact ⟨((v1, true), _), rfl, _, rfl⟩
              · obtain ⟨e, rfl⟩ := hc
                simp only [dec, ↓reduceIte]
                rcases (k sub1 .panic) with ⟨v1, _ | e | _⟩
                · simp only [enc]
                  rcases returnToDepth dbg (er.stackPos + 1) s1 with f | ⟨e | _, s3⟩
                  · rfl
                  · exact ⟨((v1, false), _), rfl, rfl⟩
                  · exact ih er v1 s3
                · exact ⟨((v1, false), _), rfl, rfl⟩
                · exact ⟨((v1, true), _), rfl, _, rfl⟩

theorem readTo_flag {σ : Type} (dbg : Bool) (V : PVisitor σ) (fuel : Nat) (er : ElemReader) (v : σ) (s : RState) :
    CodedR (SX.readTo dbg (flag V) fuel er (v, false) s) (readTo dbg V fuel er v s) := by
  unfold readTo SX.readTo
  rcases s.stack[er.stackPos]? with _ | elem
  · rfl
  · simp only
    obtain ⟨x, hx, hc⟩ := visitAttrs_flag V s.stack elem.pos er.attrs v
    rw [hx]
    revert hc
    rcases visitAttrs V s.stack elem.pos er.attrs v with ⟨v1, _ | e | _⟩ <;> intro hc
    · cases hc
      exact readLoop_flag dbg V fuel er v1 s
    · cases hc
      exact ⟨((v1, false), _), rfl, rfl⟩
    · obtain ⟨e, rfl⟩ := hc
      exact ⟨((v1, true), _), rfl, _, rfl⟩

theorem dec_coded {σ ρ : Type} {x : (σ × Bool) × Except VErr ρ} {v : σ} {r : Ret VErr ρ} (h : Coded x (v, r)) : x.1.1 = v ∧ dec x.1.2 x.2 = r := by
  rcases r with _ | e | _
  · cases h; exact ⟨rfl, rfl⟩
  · cases h; exact ⟨rfl, rfl⟩
  · obtain ⟨e, rfl⟩ := h; exact ⟨rfl, rfl⟩

theorem runDeser_flag {σ α : Type} (dbg : Bool) (V : PVisitor σ) (D : PDeser σ α) (p : Except Fault (Except VErr α)) (fuel : Nat) (er : ElemReader) (s : RState) :
    SX.runDeser dbg (flag V) (flagD p D) fuel er s =
      match runDeser dbg V D fuel er s with
      | .error f => .error f
      | .ok (r, s) => (encD p r).map fun r => (r, s) := by
  have key : ∀ (y : Ret VErr α) (s2 : RState), (match (Except.ok (encD p y, s2) : Except Fault (Except Fault (Except VErr α) × RState)) with
      | .error f => .error f
      | .ok (.error f, _) => .error f
      | .ok (.ok r, s) => .ok (r, s)) = (encD p y).map fun r => (r, s2) := by
    rintro (_ | e | _) s2
    · rfl
    · rfl
    · rcases p with _ | _ <;> rfl
  unfold runDeser SX.runDeser
  rcases s.stack[er.stackPos]? with _ | elem
  · rfl
  · simp only [flagD]
    cases D { name := elem.name, ns := er.ns, depth := er.stackPos + 1 } with
    | done y => exact key y s
    | readString k =>
      simp only
      rcases readString dbg er fuel "" s with f | ⟨r, s2⟩
      · rfl
      · exact key (k r) s2
    | readTo sub k =>
      simp only
      have := readTo_flag dbg V fuel er sub s
      revert this
      rcases readTo dbg V fuel er sub s with f | ⟨sub2, r, s2⟩
      · intro this
        rw [this]
      · rintro ⟨y, hy, hd⟩
        rw [hy]
        obtain ⟨h1, h2⟩ := dec_coded hd
        simp only [h1, h2]
        exact key (k sub2 r) s2

/-- Reading with the flagged visitor, when panics of the implementation for the root are faults. -/
theorem read_flag_fault {σ α : Type} (dbg : Bool) (V : PVisitor σ) (D : PDeser σ α) (i : Input) :
    SX.read dbg (flag V) (flagD (.error .panic) D) i = (read dbg V D i).bind faultOf := by
  unfold read SX.read
  rcases root dbg i.start with f | ⟨e | er, s⟩
  · rfl
  · rfl
  · simp only [runDeser_flag]
    rcases runDeser dbg V D (s.inner.items.length + 1) er s with f | ⟨_ | e | _, s1⟩
    · rfl
    · simp only [encD, Except.map]
      rcases endDoc dbg s1 with f | ⟨e | _⟩ <;> rfl
    · rfl
    · rfl

/-- Reading with the flagged visitor, when panics of the implementation for the root are errors. -/
theorem read_flag_error {σ α : Type} (dbg : Bool) (V : PVisitor σ) (D : PDeser σ α) (i : Input) :
    match read dbg V D i with
    | .error f => SX.read dbg (flag V) (flagD (.ok (.error cover)) D) i = .error f
    | .ok (.ok a) => SX.read dbg (flag V) (flagD (.ok (.error cover)) D) i = .ok (.ok a)
    | .ok (.err e) => SX.read dbg (flag V) (flagD (.ok (.error cover)) D) i = .ok (.error e)
    | .ok .panic => ∃ e, SX.read dbg (flag V) (flagD (.ok (.error cover)) D) i = .ok (.error e) := by
  unfold read SX.read
  rcases root dbg i.start with f | ⟨e | er, s⟩
  · rfl
  · rfl
  · simp only [runDeser_flag]
    rcases runDeser dbg V D (s.inner.items.length + 1) er s with f | ⟨_ | e | _, s1⟩
    · rfl
    · simp only [encD, Except.map]
      rcases endDoc dbg s1 with f | ⟨e | _⟩ <;> rfl
    · rfl
    · exact ⟨_, rfl⟩

/-! What flagged visitors are like. -/

theorem enc_total {σ : Type} (r : σ × Ret VErr Unit) : ∃ x, enc r = .ok x := by
  rcases r with ⟨v, _ | e | _⟩ <;> exact ⟨_, rfl⟩

theorem flag_total {σ : Type} (V : PVisitor σ) : Spec.Total (flag V) where
  attr v n s := enc_total _
  chars v s p := by
    simp only [flag]
    rcases V.onChars v.1 s p with ⟨v1, _ | e | _⟩ <;> exact ⟨_, rfl⟩
  elem v i := by
    simp only [flag]
    cases V.onElem v.1 i with
    | done r => exact enc_total _
    | readString k => exact fun r => enc_total _
    | readTo sub k => exact fun sub r => enc_total _

theorem flagD_total {σ α : Type} (D : PDeser σ α) (r : Except VErr α) : Spec.DeserTotal (flagD (.ok r) D) := by
  have h : ∀ y, ∃ x, encD (.ok r) y = .ok x := by rintro (_ | e | _) <;> exact ⟨_, rfl⟩
  intro i
  simp only [flagD]
  cases D i with
  | done y => exact h _
  | readString k => exact fun _ => h _
  | readTo sub k => exact fun _ _ => h _

theorem enc_ok {σ : Type} {r : σ × Ret VErr Unit} {v} (h : enc r = .ok (v, .ok ())) : r.2 = .ok () := by
  rcases r with ⟨v, _ | e | _⟩
  · rfl
  · simp [enc] at h
  · simp [enc] at h

theorem dec_error {ρ : Type} (b : Bool) (e : VErr) : (dec b (.error e) : Ret VErr ρ) = .err e ∨ (dec b (.error e) : Ret VErr ρ) = .panic := by
  cases b
  · exact .inl rfl
  · exact .inr rfl

theorem flag_noSwallow {σ : Type} {V : PVisitor σ} (h : Spec.UnwindDe.NoSwallow V) : Spec.NoSwallow (flag V) := by
  intro v i
  have := h v.1 i
  revert this
  simp only [flag]
  cases V.onElem v.1 i with
  | done r => exact fun _ => trivial
  | readString k => exact fun hk e v' he => hk e (enc_ok he)
  | readTo sub k =>
    intro hk sub e v' he
    simp only at he
    rcases dec_error (ρ := ReadToOk) sub.2 e with hd | hd
    · rw [hd] at he; exact hk.1 _ _ (enc_ok he)
    · rw [hd] at he; exact hk.2 _ (enc_ok he)

theorem flagD_noSwallow {σ α : Type} {D : PDeser σ α} {p : Except Fault (Except VErr α)} (hp : ∀ a, p ≠ .ok (.ok a)) (h : Spec.UnwindDe.DeserNoSwallow D) :
    Spec.DeserNoSwallow (flagD p D) := by
  have hd : ∀ y a, encD p y = .ok (.ok a) → y = .ok a := by
    rintro (_ | e | _) a h
    · simp only [encD, Except.ok.injEq] at h; rw [h]
    · simp [encD] at h
    · exact absurd h (hp a)
  intro i
  have := h i
  revert this
  simp only [flagD]
  cases D i with
  | done r => exact fun _ => trivial
  | readString k => exact fun hk e a he => hk e a (hd _ _ he)
  | readTo sub k =>
    intro hk sub e a he
    simp only at he
    rcases dec_error (ρ := ReadToOk) sub.2 e with hx | hx
    · rw [hx] at he; exact hk.1 _ _ a (hd _ _ he)
    · rw [hx] at he; exact hk.2 _ a (hd _ _ he)

/-! The traversal of the tree. -/

theorem attributes_flag {σ : Type} (V : PVisitor σ) (here : List StackElem) (pos : Pos) (l : List XAttr) (v : σ) :
    ∃ x, Spec.attributes (flag V) here pos l (v, false) = .ok x ∧ Coded x (Spec.UnwindDe.attributes V here pos l v) := by
  induction l generalizing v with
  | nil => exact ⟨_, rfl, rfl⟩
  | cons a l ih =>
    simp only [Spec.attributes, Spec.UnwindDe.attributes, flag_onAttr]
    rcases V.onAttr v a.name.expanded a.value with ⟨v1, _ | (e | e) | _⟩
    · exact ih v1
    · exact ⟨_, rfl, rfl⟩
    · exact ⟨_, rfl, rfl⟩
    · exact ⟨_, rfl, _, rfl⟩

/-- `x` is `y` with the flag. -/
def CodedC {σ : Type} (x : (σ × Bool) × Except (Error × Spec.Stop) Unit) : σ × Left → Prop
  | (v, .atEnd) => x = ((v, false), .ok ())
  | (v, .rejected e stop) => x = ((v, false), .error (e, stop))
  | (v, .panicked stop) => ∃ e, x = ((v, true), .error (e, stop))

theorem content_flag {σ : Type} (V : PVisitor σ) (path : List StackElem) (f : Spec.Forest) (v : σ) :
    ∃ x, Spec.content (flag V) path f (v, false) = .ok x ∧ CodedC x (Spec.UnwindDe.content V path f v) := by
  induction f generalizing path v with
  | nil => exact ⟨_, rfl, rfl⟩
  | misc m pos rest ih => exact ih path v
  | chars s cd pos rest ih =>
    simp only [Spec.content, Spec.UnwindDe.content, flag_onChars]
    rcases V.onChars v s pos with ⟨v1, _ | e | _⟩
    · exact ih path v1
    · exact ⟨_, rfl, rfl⟩
    · exact ⟨_, rfl, _, rfl⟩
  | elem name attrs ns pos ch ep rest ihc ihr =>
    unfold Spec.content Spec.UnwindDe.content
    simp only [flag_onElem]
    cases V.onElem v { name := name, ns := ns, depth := (path ++ [({ name, pos } : StackElem)]).length } with
    | done y =>
      rcases y with ⟨v1, _ | (e | e) | _⟩
      · exact ihr path v1
      · exact ⟨_, rfl, rfl⟩
      · exact ⟨_, rfl, rfl⟩
      · exact ⟨_, rfl, _, rfl⟩
    | readString k =>
      simp only
      rcases k (Spec.asText (path ++ [({ name, pos } : StackElem)]) ch ep).1 with ⟨v1, _ | (e | e) | _⟩
      · exact ihr path v1
      · exact ⟨_, rfl, rfl⟩
      · exact ⟨_, rfl, rfl⟩
      · exact ⟨_, rfl, _, rfl⟩
    | readTo sub k =>
      simp only
      obtain ⟨x, hx, hc⟩ := attributes_flag V (path ++ [({ name, pos } : StackElem)]) pos attrs sub
      rw [hx]
      revert hc
      rcases Spec.UnwindDe.attributes V (path ++ [({ name, pos } : StackElem)]) pos attrs sub with ⟨sub1, _ | e | _⟩ <;> intro hc
      · cases hc
        obtain ⟨y, hy, hd⟩ := ihc (path ++ [({ name, pos } : StackElem)]) sub1
        simp only
        rw [hy]
        revert hd
        rcases Spec.UnwindDe.content V (path ++ [({ name, pos } : StackElem)]) ch sub1 with ⟨sub2, _ | ⟨e, stop⟩ | stop⟩ <;> intro hd
        · cases hd
          simp only [dec, retOf, Bool.false_eq_true, ↓reduceIte]
          rcases k sub2 (.ok (name, ns, ep)) with ⟨v1, _ | (e | e) | _⟩
          · exact ihr path v1
          · exact ⟨_, rfl, rfl⟩
          · exact ⟨_, rfl, rfl⟩
          · exact ⟨_, rfl, _, rfl⟩
        · cases hd
          simp only [dec, retOf, Bool.false_eq_true, ↓reduceIte]
          rcases k sub2 (.err (.propagate e)) with ⟨v1, _ | (e | e) | _⟩
          · exact ihr path v1
          · exact ⟨_, rfl, rfl⟩
          · exact ⟨_, rfl, rfl⟩
          · exact ⟨_, rfl, _, rfl⟩
        · obtain ⟨e, rfl⟩ := hd
          simp only [dec, ↓reduceIte]
          rcases k sub2 .panic with ⟨v1, _ | (e | e) | _⟩
          · exact ihr path v1
          · exact ⟨_, rfl, rfl⟩
          · exact ⟨_, rfl, rfl⟩
          · exact ⟨_, rfl, _, rfl⟩
      · cases hc
        simp only [dec, retOf, Bool.false_eq_true, ↓reduceIte]
        rcases k sub1 (.err (.propagate e)) with ⟨v1, _ | (e | e) | _⟩
        · exact ihr path v1
        · exact ⟨_, rfl, rfl⟩
        · exact ⟨_, rfl, rfl⟩
        · exact ⟨_, rfl, _, rfl⟩
      · obtain ⟨e, rfl⟩ := hc
        simp only [dec, ↓reduceIte]
        rcases k sub1 .panic with ⟨v1, _ | (e | e) | _⟩
        · exact ihr path v1
        · exact ⟨_, rfl, rfl⟩
        · exact ⟨_, rfl, rfl⟩
        · exact ⟨_, rfl, _, rfl⟩

theorem readDoc_flag {σ α : Type} (V : PVisitor σ) (D : PDeser σ α) (d : Spec.Doc) :
    Spec.readDoc (flag V) (flagD (.error .panic) D) d = faultOf (Spec.UnwindDe.readDoc V D d) := by
  unfold Spec.readDoc Spec.UnwindDe.readDoc Spec.deser Spec.UnwindDe.deser
  simp only [flagD]
  cases D { name := d.root.name, ns := d.root.ns, depth := ([] ++ [({ name := d.root.name, pos := d.root.pos } : StackElem)]).length } with
  | done y => rcases y with _ | (e | e) | _ <;> rfl
  | readString k =>
    simp only
    rcases k (Spec.asText ([] ++ [({ name := d.root.name, pos := d.root.pos } : StackElem)]) d.root.children d.root.endPos).1 with _ | (e | e) | _ <;> rfl
  | readTo sub k =>
    simp only
    obtain ⟨x, hx, hc⟩ := attributes_flag V ([] ++ [({ name := d.root.name, pos := d.root.pos } : StackElem)]) d.root.pos d.root.attrs sub
    rw [hx]
    revert hc
    rcases Spec.UnwindDe.attributes V ([] ++ [({ name := d.root.name, pos := d.root.pos } : StackElem)]) d.root.pos d.root.attrs sub with ⟨sub1, _ | e | _⟩ <;> intro hc
    · cases hc
      obtain ⟨y, hy, hd⟩ := content_flag V ([] ++ [({ name := d.root.name, pos := d.root.pos } : StackElem)]) d.root.children sub1
      simp only
      rw [hy]
      revert hd
      rcases Spec.UnwindDe.content V ([] ++ [({ name := d.root.name, pos := d.root.pos } : StackElem)]) d.root.children sub1 with ⟨sub2, _ | ⟨e, stop⟩ | stop⟩ <;> intro hd
      · cases hd
        simp only [dec, retOf, Bool.false_eq_true, ↓reduceIte]
        rcases k sub2 (.ok (d.root.name, d.root.ns, d.root.endPos)) with _ | (e | e) | _ <;> rfl
      · cases hd
        simp only [dec, retOf, Bool.false_eq_true, ↓reduceIte]
        rcases k sub2 (.err (.propagate e)) with _ | (e | e) | _ <;> rfl
      · obtain ⟨e, rfl⟩ := hd
        simp only [dec, ↓reduceIte]
        rcases k sub2 .panic with _ | (e | e) | _ <;> rfl
    · cases hc
      simp only [dec, retOf, Bool.false_eq_true, ↓reduceIte]
      rcases k sub1 (.err (.propagate e)) with _ | (e | e) | _ <;> rfl
    · obtain ⟨e, rfl⟩ := hc
      simp only [dec, ↓reduceIte]
      rcases k sub1 .panic with _ | (e | e) | _ <;> rfl

end SX.UnwindDe
