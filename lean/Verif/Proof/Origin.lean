import Verif.Spec.Origin
import Verif.Proof.Prefix

/-
Every error of the reader is one of the parser, one of an implementation, or one of the crate's own.
-/
namespace SX.Origin
open Spec

/-- Where an error comes from if the parser ends with `F`. -/
def From (own : VErr → Prop) (F : Final) (E : Error) : Prop :=
  (∃ x, F = .err x E.pos ∧ E.kind = .xml x) ∨ (∃ m, E.kind = .msg m) ∨ (∃ d, own (.wrap d) ∧ E.kind = .deserializer d) ∨ own (.propagate E)

def VFrom (own : VErr → Prop) (F : Final) : VErr → Prop
  | .propagate E => From own F E
  | .wrap d => own (.wrap d)

variable {own : VErr → Prop} {F : Final}

theorem VFrom.of_own {e : VErr} (h : own e) : VFrom own F e := by
  cases e with
  | propagate E => exact .inr (.inr (.inr h))
  | wrap d => exact h

theorem VFrom.toError {e : VErr} (h : VFrom own F e) (stack : List StackElem) (pos : Pos) : From own F (e.toError stack pos) := by
  cases e with
  | propagate E => exact h
  | wrap d => exact .inr (.inr (.inl ⟨d, h, rfl⟩))

theorem nextLoop_from (dbg : Bool) (fp : Pos) (depth : Nat) (stack : List StackElem) (items : List (XEvent × Pos)) {r s'}
    (h : nextLoop dbg F fp depth stack items = .ok (r, s')) : s'.inner.final = F ∧ ∀ E, r = .error E → From own F E := by
  induction items with
  | nil =>
    cases F with
    | eof => cases h
    | err m p =>
      cases h
      exact ⟨rfl, fun E hE => by cases hE; exact .inl ⟨m, rfl, rfl⟩⟩
  | cons x items ih =>
    obtain ⟨e, q⟩ := x
    cases e with
    | startDocument => exact ih h
    | misc m => exact ih h
    | characters s => cases h; exact ⟨rfl, fun E hE => by cases hE⟩
    | cdata s => cases h; exact ⟨rfl, fun E hE => by cases hE⟩
    | startElement name attrs ns => cases h; exact ⟨rfl, fun E hE => by cases hE⟩
    | endElement name =>
      cases depth with
      | zero => cases h
      | succ d =>
        rw [nextLoop] at h
        split at h
        · cases h
        · cases h; exact ⟨rfl, fun E hE => by cases hE⟩

theorem next_from (dbg : Bool) {s : RState} (hs : s.inner.final = F) {r s'} (h : next dbg s = .ok (r, s')) :
    s'.inner.final = F ∧ ∀ E, r = .error E → From own F E := by
  unfold next at h
  split at h
  · cases h
  · rw [hs] at h; exact nextLoop_from dbg _ _ _ _ h

theorem skipLoop_from (dbg : Bool) (target fuel : Nat) : ∀ {s : RState}, s.inner.final = F → ∀ {r s'}, skipLoop dbg target fuel s = .ok (r, s') →
    s'.inner.final = F ∧ ∀ E, r = .error E → From own F E := by
  induction fuel with
  | zero => intro s _ r s' h; cases h
  | succ fuel ih =>
    intro s hs r s' h
    rw [skipLoop] at h
    split at h
    · cases hn : next dbg s with
      | error f => rw [hn] at h; cases h
      | ok x =>
        obtain ⟨x, s1⟩ := x
        obtain ⟨h1, h2⟩ := next_from (own := own) dbg hs hn
        rw [hn] at h
        cases x with
        | error E => cases h; exact ⟨h1, fun E' hE => by cases hE; exact h2 E rfl⟩
        | ok y => exact ih (s := { s1 with stack := s1.stack.take s1.depth }) h1 h
    · cases h; exact ⟨hs, fun E hE => by cases hE⟩

theorem returnToDepth_from (dbg : Bool) (target : Nat) {s : RState} (hs : s.inner.final = F) {r s'} (h : returnToDepth dbg target s = .ok (r, s')) :
    s'.inner.final = F ∧ ∀ E, r = .error E → From own F E := by
  unfold returnToDepth at h
  split at h
  · cases h
  · exact skipLoop_from dbg target _ hs h

theorem readString_from (dbg : Bool) (er : ElemReader) (fuel : Nat) : ∀ {out : String} {s : RState}, s.inner.final = F → ∀ {r s'},
    readString dbg er fuel out s = .ok (r, s') → s'.inner.final = F ∧ ∀ e, r = .error e → VFrom own F e := by
  induction fuel with
  | zero => intro out s _ r s' h; cases h
  | succ fuel ih =>
    intro out s hs r s' h
    rw [readString] at h
    split at h
    · cases h
    · cases hn : next dbg s with
      | error f => rw [hn] at h; cases h
      | ok x =>
        obtain ⟨x, s1⟩ := x
        obtain ⟨h1, h2⟩ := next_from (own := own) dbg hs hn
        rw [hn] at h
        cases x with
        | error E => cases h; exact ⟨h1, fun e he => by cases he; exact h2 E rfl⟩
        | ok y =>
          obtain ⟨e, q⟩ := y
          cases e with
          | start a b =>
            simp only at h
            split at h
            · cases h
            · cases h; exact ⟨h1, fun e he => by cases he; exact .inr (.inl ⟨_, rfl⟩)⟩
          | end_ a => cases h; exact ⟨h1, fun e he => by cases he⟩
          | chars str => exact ih h1 h

theorem visitAttrs_from {σ : Type} {V : Visitor σ} (M : Makes own V) (stack : List StackElem) (pos : Pos) : ∀ (l : List XAttr) (v : σ) {v' r},
    visitAttrs V stack pos l v = .ok (v', r) → ∀ e, r = .error e → VFrom own F e := by
  intro l
  induction l with
  | nil => intro v v' r h e he; cases h; cases he
  | cons a l ih =>
    intro v v' r h e he
    rw [visitAttrs] at h
    cases ha : V.onAttr v a.name.expanded a.value with
    | error f => rw [ha] at h; cases h
    | ok x =>
      obtain ⟨v1, x⟩ := x
      rw [ha] at h
      cases x with
      | error e' =>
        cases h; cases he
        exact (VFrom.of_own (F := F) (M.attr _ _ _ _ _ ha)).toError stack pos
      | ok u => exact ih v1 h e he

theorem readLoop_from {σ : Type} (dbg : Bool) {V : Visitor σ} (M : Makes own V) (fuel : Nat) : ∀ {er : ElemReader} {v : σ} {s : RState}, s.inner.final = F →
    ∀ {v' r s'}, readLoop dbg V fuel er v s = .ok (v', r, s') → s'.inner.final = F ∧ ∀ e, r = .error e → VFrom own F e := by
  induction fuel with
  | zero => intro er v s _ v' r s' h; cases h
  | succ fuel ih =>
    intro er v s hs v' r s' h
    by_cases hc : (dbg && er.stackPos + 1 != s.stack.length) = true
    · rw [readLoop, if_pos hc] at h; cases h
    · cases hn : next dbg s with
      | error f => rw [readLoop, if_neg hc, hn] at h; cases h
      | ok x =>
        obtain ⟨x, s1⟩ := x
        obtain ⟨h1, h2⟩ := next_from (own := own) dbg hs hn
        cases x with
        | error E =>
          rw [readLoop, if_neg hc, hn] at h
          cases h; exact ⟨h1, fun e he => by cases he; exact h2 E rfl⟩
        | ok y =>
          obtain ⟨e, q⟩ := y
          cases e with
          | end_ a =>
            rw [readLoop, if_neg hc, hn] at h
            cases h; exact ⟨h1, fun e he => by cases he⟩
          | chars str =>
            rw [readLoop, if_neg hc, hn] at h
            simp only at h
            cases ho : V.onChars v str q with
            | error f => rw [ho] at h; cases h
            | ok z =>
              obtain ⟨v1, z⟩ := z
              rw [ho] at h
              cases z with
              | error d => cases h; exact ⟨h1, fun e he => by cases he; exact .inr (.inr (.inl ⟨d, M.chars _ _ _ _ _ ho, rfl⟩))⟩
              | ok u => exact ih h1 h
          | start attrs ns =>
            cases he : s1.stack[er.stackPos + 1]? with
            | none => rw [readLoop, if_neg hc, hn] at h; simp only [he] at h; cases h
            | some elem =>
              rw [Prefix.readLoop_start dbg V fuel er v s s1 hc attrs ns q hn elem he] at h
              have key : ∀ {y s2}, Prefix.childRun dbg V fuel { ns, attrs, stackPos := er.stackPos + 1 } elem v s1 = .ok (y, s2) →
                  s2.inner.final = F ∧ ∀ v' e, y = .ok (v', .error e) → VFrom own F e := by
                intro y s2 hy
                unfold Prefix.childRun at hy
                have hm := M.elem v { name := elem.name, ns := ns, depth := er.stackPos + 1 + 1 }
                cases hact : V.onElem v { name := elem.name, ns := ns, depth := er.stackPos + 1 + 1 } with
                | done r =>
                  rw [hact] at hm hy
                  cases hy
                  exact ⟨h1, fun v' e hr => .of_own (hm e ⟨v', hr⟩)⟩
                | readString k =>
                  rw [hact] at hm hy
                  simp only at hy
                  cases hr : readString dbg { ns, attrs, stackPos := er.stackPos + 1 } fuel "" s1 with
                  | error f => rw [hr] at hy; cases hy
                  | ok z =>
                    obtain ⟨z, s3⟩ := z
                    rw [hr] at hy
                    cases hy
                    obtain ⟨h3, h4⟩ := readString_from (own := own) dbg _ fuel h1 hr
                    refine ⟨h3, fun v' e hk => ?_⟩
                    rcases hm z e ⟨v', hk⟩ with h | h
                    · exact .of_own h
                    · exact h4 e h
                | readTo sub k =>
                  rw [hact] at hm hy
                  simp only at hy
                  cases hv : visitAttrs V s1.stack elem.pos attrs sub with
                  | error f => rw [hv] at hy; cases hy
                  | ok z =>
                    obtain ⟨sub', z⟩ := z
                    rw [hv] at hy
                    cases z with
                    | error e' =>
                      cases hy
                      refine ⟨h1, fun v' e hk => ?_⟩
                      rcases hm _ _ e ⟨v', hk⟩ with h | h
                      · exact .of_own h
                      · cases h; exact visitAttrs_from M _ _ _ _ hv e' rfl
                    | ok u =>
                      simp only at hy
                      cases hr : readLoop dbg V fuel { ns, attrs, stackPos := er.stackPos + 1 } sub' s1 with
                      | error f => rw [hr] at hy; cases hy
                      | ok z =>
                        obtain ⟨sub2, z, s3⟩ := z
                        rw [hr] at hy
                        cases hy
                        obtain ⟨h3, h4⟩ := ih h1 hr
                        refine ⟨h3, fun v' e hk => ?_⟩
                        rcases hm _ _ e ⟨v', hk⟩ with h | h
                        · exact .of_own h
                        · exact h4 e h
              cases hr : Prefix.childRun dbg V fuel { ns, attrs, stackPos := er.stackPos + 1 } elem v s1 with
              | error f => rw [hr] at h; cases h
              | ok z =>
                obtain ⟨z, s2⟩ := z
                rw [hr] at h
                obtain ⟨h3, h4⟩ := key hr
                cases z with
                | error f => cases h
                | ok z =>
                  obtain ⟨v1, z⟩ := z
                  cases z with
                  | error e => cases h; exact ⟨h3, fun e' he => by cases he; exact (h4 _ e rfl).toError _ _⟩
                  | ok u =>
                    simp only at h
                    cases ht : returnToDepth dbg (er.stackPos + 1) s2 with
                    | error f => rw [ht] at h; cases h
                    | ok z =>
                      obtain ⟨z, s3⟩ := z
                      rw [ht] at h
                      obtain ⟨h5, h6⟩ := returnToDepth_from (own := own) dbg _ h3 ht
                      cases z with
                      | error E => cases h; exact ⟨h5, fun e he => by cases he; exact h6 E rfl⟩
                      | ok u => exact ih h5 h

theorem readTo_from {σ : Type} (dbg : Bool) {V : Visitor σ} (M : Makes own V) (fuel : Nat) {er : ElemReader} {v : σ} {s : RState} (hs : s.inner.final = F)
    {v' r s'} (h : readTo dbg V fuel er v s = .ok (v', r, s')) : s'.inner.final = F ∧ ∀ e, r = .error e → VFrom own F e := by
  unfold readTo at h
  split at h
  · cases h
  · rename_i elem _
    cases hv : visitAttrs V s.stack elem.pos er.attrs v with
    | error f => rw [hv] at h; cases h
    | ok z =>
      obtain ⟨v1, z⟩ := z
      rw [hv] at h
      cases z with
      | error e => cases h; exact ⟨hs, fun e' he => by cases he; exact visitAttrs_from M _ _ _ _ hv e rfl⟩
      | ok u => exact readLoop_from dbg M fuel hs h

theorem runDeser_from {σ α : Type} (dbg : Bool) {V : Visitor σ} (M : Makes own V) {D : Deser σ α} (MD : DeserMakes own D) (fuel : Nat) {er : ElemReader}
    {s : RState} (hs : s.inner.final = F) {r s'} (h : runDeser dbg V D fuel er s = .ok (r, s')) : s'.inner.final = F ∧ ∀ e, r = .error e → VFrom own F e := by
  unfold runDeser at h
  split at h
  · cases h
  · rename_i elem _
    simp only at h
    have hm := MD { name := elem.name, ns := er.ns, depth := er.stackPos + 1 }
    cases hact : D { name := elem.name, ns := er.ns, depth := er.stackPos + 1 } with
    | done r =>
      rw [hact] at hm h
      cases r with
      | error f => cases h
      | ok r => cases h; exact ⟨hs, fun e he => .of_own (hm e (by rw [he]))⟩
    | readString k =>
      rw [hact] at hm h
      simp only at h
      cases hr : readString dbg er fuel "" s with
      | error f => rw [hr] at h; cases h
      | ok z =>
        obtain ⟨z, s1⟩ := z
        rw [hr] at h
        obtain ⟨h1, h2⟩ := readString_from (own := own) dbg _ fuel hs hr
        cases hk : k z with
        | error f => simp only [hk] at h; cases h
        | ok y =>
          simp only [hk] at h
          cases h
          refine ⟨h1, fun e he => ?_⟩
          rcases hm z e (by rw [hk, he]) with h | h
          · exact .of_own h
          · exact h2 e h
    | readTo sub k =>
      rw [hact] at hm h
      simp only at h
      cases hr : readTo dbg V fuel er sub s with
      | error f => rw [hr] at h; cases h
      | ok z =>
        obtain ⟨sub', z, s1⟩ := z
        rw [hr] at h
        obtain ⟨h1, h2⟩ := readTo_from (own := own) dbg M fuel hs hr
        cases hk : k sub' z with
        | error f => simp only [hk] at h; cases h
        | ok y =>
          simp only [hk] at h
          cases h
          refine ⟨h1, fun e he => ?_⟩
          rcases hm sub' z e (by rw [hk, he]) with h | h
          · exact .of_own h
          · exact h2 e h

theorem endLoop_from (fp : Pos) (items : List (XEvent × Pos)) {E : Error} (h : endLoop F fp items = .error E) : From own F E := by
  induction items with
  | nil =>
    cases F with
    | eof => cases h
    | err m p => cases h; exact .inl ⟨_, rfl, rfl⟩
  | cons x items ih =>
    obtain ⟨e, q⟩ := x
    cases e with
    | misc x =>
      cases x with
      | comment s => exact ih h
      | pi n d => exact ih h
      | whitespace s => cases h; exact .inr (.inl ⟨_, rfl⟩)
    | _ => cases h; exact .inr (.inl ⟨_, rfl⟩)

theorem root_from (dbg : Bool) {s : RState} (hs : s.inner.final = F) {r s'} (h : root dbg s = .ok (r, s')) :
    s'.inner.final = F ∧ ∀ E, r = .error E → From own F E := by
  unfold root at h
  split at h
  · split at h
    · cases h; exact ⟨hs, fun E hE => by cases hE; exact .inr (.inl ⟨_, rfl⟩)⟩
    · rename_i m p hf
      cases h
      exact ⟨hs, fun E hE => by cases hE; exact .inl ⟨m, by rw [← hs, hf], rfl⟩⟩
  · rename_i pos rest _
    cases hn : next dbg { s with inner := { s.inner with pos, items := rest } } with
    | error f => rw [hn] at h; cases h
    | ok z =>
      obtain ⟨z, s1⟩ := z
      obtain ⟨h1, h2⟩ := next_from (own := own) (F := F) dbg (by exact hs) hn
      rw [hn] at h
      cases z with
      | error E => cases h; exact ⟨h1, fun E' hE => by cases hE; exact h2 E rfl⟩
      | ok y =>
        obtain ⟨e, q⟩ := y
        cases e with
        | start a b => cases h; exact ⟨h1, fun E hE => by cases hE⟩
        | end_ a => cases h; exact ⟨h1, fun E hE => by cases hE; exact .inr (.inl ⟨_, rfl⟩)⟩
        | chars a => cases h; exact ⟨h1, fun E hE => by cases hE; exact .inr (.inl ⟨_, rfl⟩)⟩
  · cases h; exact ⟨hs, fun E hE => by cases hE; exact .inr (.inl ⟨_, rfl⟩)⟩

theorem read_from {σ α : Type} (dbg : Bool) {V : Visitor σ} (M : Makes own V) {D : Deser σ α} (MD : DeserMakes own D) (i : Input) {E : Error}
    (h : read dbg V D i = .ok (.error E)) : From own i.final E := by
  unfold read at h
  cases hr : root dbg i.start with
  | error f => rw [hr] at h; cases h
  | ok z =>
    obtain ⟨z, s⟩ := z
    rw [hr] at h
    obtain ⟨h1, h2⟩ := root_from (own := own) dbg (F := i.final) rfl hr
    cases z with
    | error E' => cases h; exact h2 E rfl
    | ok er =>
      simp only at h
      cases hd : runDeser dbg V D (s.inner.items.length + 1) er s with
      | error f => rw [hd] at h; cases h
      | ok z =>
        obtain ⟨z, s1⟩ := z
        rw [hd] at h
        obtain ⟨h3, h4⟩ := runDeser_from dbg M MD _ h1 hd
        cases z with
        | error e => cases h; exact (h4 e rfl).toError _ _
        | ok a =>
          simp only at h
          unfold endDoc at h
          cases ht : returnToDepth dbg 0 s1 with
          | error f => rw [ht] at h; cases h
          | ok z =>
            obtain ⟨z, s2⟩ := z
            rw [ht] at h
            obtain ⟨h5, h6⟩ := returnToDepth_from (own := own) dbg _ h3 ht
            cases z with
            | error E' => cases h; exact h6 E rfl
            | ok u =>
              simp only at h
              cases he : endLoop s2.inner.final s2.inner.finalPos s2.inner.items with
              | error E' => rw [he] at h; cases h; rw [h5] at he; exact endLoop_from _ _ he
              | ok u => rw [he] at h; cases h

end SX.Origin
