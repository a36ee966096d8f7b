import Verif.Proof.UnwindDe

/-
Without `catch_unwind`, panics are the faults of `Model/Reader.lean`.
-/
namespace SX.UnwindDe
open SX.Open SX.Spec.UnwindDe

/-- `x` is `y`, where a panic is a fault. -/
def Alike {σ ρ : Type} (x : Except Fault (σ × Except VErr ρ × RState)) : Except Fault (σ × Ret VErr ρ × RState) → Prop
  | .error f => x = .error f
  | .ok (v, .ok r, s) => x = .ok (v, .ok r, s)
  | .ok (v, .err e, s) => x = .ok (v, .error e, s)
  | .ok (_, .panic, _) => x = .error .panic

theorem plain_onAttr {σ : Type} (V : PVisitor σ) (v : σ) (n : EName) (s : String) : (plain V).onAttr v n s = faultWith (V.onAttr v n s) := rfl

theorem plain_onChars {σ : Type} (V : PVisitor σ) (v : σ) (s : String) (p : Pos) : (plain V).onChars v s p = faultWith (V.onChars v s p) := rfl

theorem plain_onElem {σ : Type} (V : PVisitor σ) (v : σ) (i : ElemInfo) : (plain V).onElem v i =
    match V.onElem v i with
    | .done r => .done (faultWith r)
    | .readString k => .readString fun r => faultWith (k r)
    | .readTo sub k => .readTo sub fun sub r => faultWith (k sub (retOf r)) := rfl

theorem visitAttrs_plain {σ : Type} (V : PVisitor σ) (stack : List StackElem) (pos : Pos) (l : List XAttr) (v : σ) :
    SX.visitAttrs (plain V) stack pos l v = faultWith (visitAttrs V stack pos l v) := by
  induction l generalizing v with
  | nil => rfl
  | cons a l ih =>
    simp only [SX.visitAttrs, visitAttrs, plain_onAttr]
    rcases V.onAttr v a.name.expanded a.value with ⟨v1, _ | e | _⟩
    · exact ih v1
    · rfl
    · rfl

theorem readLoop_plain {σ : Type} (dbg : Bool) (V : PVisitor σ) (hV : NoCatch V) (fuel : Nat) (er : ElemReader) (v : σ) (s : RState) :
    Alike (SX.readLoop dbg (plain V) fuel er v s) (readLoop dbg V fuel er v s) := by
  induction fuel generalizing er v s with
  | zero => rfl
  | succ fuel ih =>
    unfold readLoop SX.readLoop
    by_cases hg : (dbg && er.stackPos + 1 != s.stack.length) = true
    · simp only [hg, ↓reduceIte]; rfl
    · simp only [hg, Bool.false_eq_true, ↓reduceIte]
      rcases hn : next dbg s with f | ⟨e | ⟨ev, pos⟩, s1⟩
      · rfl
      · rfl
      · cases ev with
        | end_ name => rfl
        | chars str =>
          simp only [plain_onChars]
          rcases V.onChars v str pos with ⟨v1, _ | e | _⟩
          · exact ih er v1 s1
          · rfl
          · rfl
        | start attrs ns =>
          simp only
          rcases hs : s1.stack[er.stackPos + 1]? with _ | elem
          · rfl
          · simp only [plain_onElem]
            have hc := hV v { name := elem.name, ns := ns, depth := er.stackPos + 1 + 1 }
            revert hc
            cases V.onElem v { name := elem.name, ns := ns, depth := er.stackPos + 1 + 1 } with
            | done y =>
              intro _
              rcases y with ⟨v1, _ | e | _⟩
              · simp only [faultWith]
                rcases returnToDepth dbg (er.stackPos + 1) s1 with f | ⟨e | _, s3⟩
                · rfl
                · rfl
                · exact ih er v1 s3
              · rfl
              · rfl
            | readString k =>
              intro _
              simp only
              rcases readString dbg { ns, attrs, stackPos := er.stackPos + 1 } fuel "" s1 with f | ⟨r, s2⟩
              · rfl
              · simp only
                rcases (k r) with ⟨v1, _ | e | _⟩
                · simp only [faultWith]
                  rcases returnToDepth dbg (er.stackPos + 1) s2 with f | ⟨e | _, s3⟩
                  · rfl
                  · rfl
                  · exact ih er v1 s3
                · rfl
                · rfl
            | readTo sub k =>
              intro hc
              simp only [visitAttrs_plain]
              rcases visitAttrs V s1.stack elem.pos attrs sub with ⟨sub1, _ | e | _⟩
              · simp only [faultWith]
                have := ih { ns, attrs, stackPos := er.stackPos + 1 } sub1 s1
                revert this
                rcases readLoop dbg V fuel { ns, attrs, stackPos := er.stackPos + 1 } sub1 s1 with f | ⟨sub2, r | e | _, s2⟩
                · intro this
                  rw [show SX.readLoop dbg (plain V) fuel { ns, attrs, stackPos := er.stackPos + 1 } sub1 s1 = .error f from this]
                  rfl
                · intro this
                  rw [show SX.readLoop dbg (plain V) fuel { ns, attrs, stackPos := er.stackPos + 1 } sub1 s1 = .ok (sub2, .ok r, s2) from this]
                  simp only [retOf]
                  rcases (k sub2 (.ok r)) with ⟨v1, _ | e | _⟩
                  · simp only [faultWith]
                    rcases returnToDepth dbg (er.stackPos + 1) s2 with f | ⟨e | _, s3⟩
                    · rfl
                    · rfl
                    · exact ih er v1 s3
                  · rfl
                  · rfl
                · intro this
                  rw [show SX.readLoop dbg (plain V) fuel { ns, attrs, stackPos := er.stackPos + 1 } sub1 s1 = .ok (sub2, .error e, s2) from this]
                  simp only [retOf]
                  rcases (k sub2 (.err e)) with ⟨v1, _ | e | _⟩
                  · simp only [faultWith]
                    rcases returnToDepth dbg (er.stackPos + 1) s2 with f | ⟨e | _, s3⟩
                    · rfl
                    · rfl
                    · exact ih er v1 s3
                  · rfl
                  · rfl
                · intro this
                  rw [show SX.readLoop dbg (plain V) fuel { ns, attrs, stackPos := er.stackPos + 1 } sub1 s1 = .error .panic from this]
                  have hp := hc sub2
                  simp only at hp ⊢
                  revert hp
                  rcases (k sub2 .panic) with ⟨v1, r⟩
                  rintro rfl
                  rfl
              · simp only [faultWith, retOf]
                rcases (k sub1 (.err e)) with ⟨v1, _ | e | _⟩
                · simp only [faultWith]
                  rcases returnToDepth dbg (er.stackPos + 1) s1 with f | ⟨e | _, s3⟩
                  · rfl
                  · rfl
                  · exact ih er v1 s3
                · rfl
                · rfl
              · have hp := hc sub1
                simp only [faultWith] at hp ⊢
                revert hp
                rcases (k sub1 .panic) with ⟨v1, r⟩
                rintro rfl
                rfl

theorem readTo_plain {σ : Type} (dbg : Bool) (V : PVisitor σ) (hV : NoCatch V) (fuel : Nat) (er : ElemReader) (v : σ) (s : RState) :
    Alike (SX.readTo dbg (plain V) fuel er v s) (readTo dbg V fuel er v s) := by
  unfold readTo SX.readTo
  rcases s.stack[er.stackPos]? with _ | elem
  · rfl
  · simp only [visitAttrs_plain]
    rcases visitAttrs V s.stack elem.pos er.attrs v with ⟨v1, _ | e | _⟩
    · exact readLoop_plain dbg V hV fuel er v1 s
    · rfl
    · rfl

theorem runDeser_plain {σ α : Type} (dbg : Bool) (V : PVisitor σ) (D : PDeser σ α) (hV : NoCatch V) (hD : DeserNoCatch D) (fuel : Nat) (er : ElemReader)
    (s : RState) :
    SX.runDeser dbg (plain V) (plainD D) fuel er s =
      match runDeser dbg V D fuel er s with
      | .error f => .error f
      | .ok (r, s) => (faultOf r).map fun r => (r, s) := by
  unfold runDeser SX.runDeser
  rcases s.stack[er.stackPos]? with _ | elem
  · rfl
  · simp only [plainD]
    have hc := hD { name := elem.name, ns := er.ns, depth := er.stackPos + 1 }
    revert hc
    cases D { name := elem.name, ns := er.ns, depth := er.stackPos + 1 } with
    | done y => intro _; rcases y with _ | e | _ <;> rfl
    | readString k =>
      intro _
      simp only
      rcases readString dbg er fuel "" s with f | ⟨r, s2⟩
      · rfl
      · simp only
        rcases k r with _ | e | _ <;> rfl
    | readTo sub k =>
      intro hc
      simp only
      have := readTo_plain dbg V hV fuel er sub s
      revert this
      rcases readTo dbg V fuel er sub s with f | ⟨sub2, r | e | _, s2⟩
      · intro this
        rw [show SX.readTo dbg (plain V) fuel er sub s = .error f from this]
      · intro this
        rw [show SX.readTo dbg (plain V) fuel er sub s = .ok (sub2, .ok r, s2) from this]
        simp only [retOf]
        rcases k sub2 (.ok r) with _ | e | _ <;> rfl
      · intro this
        rw [show SX.readTo dbg (plain V) fuel er sub s = .ok (sub2, .error e, s2) from this]
        simp only [retOf]
        rcases k sub2 (.err e) with _ | e | _ <;> rfl
      · intro this
        rw [show SX.readTo dbg (plain V) fuel er sub s = .error .panic from this]
        have hp : k sub2 .panic = .panic := hc sub2
        simp only [hp]
        rfl

theorem read_plain {σ α : Type} (dbg : Bool) (V : PVisitor σ) (D : PDeser σ α) (hV : NoCatch V) (hD : DeserNoCatch D) (i : Input) :
    SX.read dbg (plain V) (plainD D) i = (read dbg V D i).bind faultOf := by
  unfold read SX.read
  rcases root dbg i.start with f | ⟨e | er, s⟩
  · rfl
  · rfl
  · simp only [runDeser_plain dbg V D hV hD]
    rcases runDeser dbg V D (s.inner.items.length + 1) er s with f | ⟨_ | e | _, s1⟩
    · rfl
    · simp only [faultOf, Except.map]
      rcases endDoc dbg s1 with f | ⟨e | _⟩ <;> rfl
    · rfl
    · rfl

end SX.UnwindDe
