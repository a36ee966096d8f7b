import Verif.Proof.Reader
import Verif.Spec.Stream

namespace SX
open Spec

def Sync (s : RState) (o : List QName) : Prop :=
  s.stack.length = s.depth ∧ (s.stack.map StackElem.name).reverse = o

/-- Any state the reader can be in, on a conforming stream. -/
structure St (s : RState) (o : List QName) : Prop where
  nested : Nested o s.inner.items s.inner.final
  depth : s.depth = o.length
  le : s.depth ≤ s.stack.length

/-- What `next` may do. -/
def NextOk (s : RState) (o : List QName) (r : Except Error (Event × Pos)) (s' : RState) : Prop :=
  s'.inner.final = s.inner.final ∧
  match r with
  | .error _ => s'.depth = s.depth ∧ s'.stack = s.stack ∧ s'.inner.items = [] ∧ Nested o s'.inner.items s'.inner.final
  | .ok (.start _ _, p) => ∃ n, s'.depth = s.depth + 1 ∧ s'.stack = s.stack ++ [⟨n, p⟩] ∧
      Nested (n :: o) s'.inner.items s'.inner.final ∧ s'.inner.items.length < s.inner.items.length
  | .ok (.end_ n, _) => s'.depth + 1 = s.depth ∧ s'.stack = s.stack ∧ o = n :: o.tail ∧
      Nested o.tail s'.inner.items s'.inner.final ∧ s'.inner.items.length < s.inner.items.length
  | .ok (.chars _, _) => s'.depth = s.depth ∧ s'.stack = s.stack ∧ Nested o s'.inner.items s'.inner.final ∧
      s'.inner.items.length < s.inner.items.length

theorem next_total (dbg : Bool) (s : RState) (o : List QName) (h : St s o) (ho : o ≠ [])
    (hx : dbg = false ∨ Sync s o) : ∃ r s', next dbg s = .ok (r, s') ∧ NextOk s o r s' := by
  obtain ⟨⟨ipos, items, final, finalPos⟩, depth, stack⟩ := s
  obtain ⟨hn, hd, hle⟩ := h
  simp only at hn hd hle
  have h0 : (dbg && stack.length != depth) = false := by
    rcases hx with h | h
    · simp [h]
    · have := h.1; simp only at this; simp [this]
  unfold next
  simp only [h0, Bool.false_eq_true, if_false]
  induction items generalizing ipos with
  | nil =>
    cases o with
    | nil => exact absurd rfl ho
    | cons n o =>
      obtain ⟨m, p, rfl⟩ := hn
      refine ⟨_, _, rfl, rfl, rfl, rfl, rfl, ?_⟩
      exact ⟨m, p, rfl⟩
  | cons e l ih =>
    obtain ⟨e, p⟩ := e
    cases o with
    | nil => exact absurd rfl ho
    | cons n o =>
      cases e with
      | startDocument => exact absurd hn id
      | startElement m a ns =>
        refine ⟨_, _, rfl, rfl, m, rfl, rfl, hn, ?_⟩
        simp
      | endElement m =>
        obtain ⟨rfl, hn⟩ := hn
        cases depth with
        | zero => simp at hd
        | succ d =>
          simp only [nextLoop]
          rw [if_neg]
          · refine ⟨_, _, rfl, rfl, rfl, rfl, rfl, hn, ?_⟩
            simp
          · rcases hx with h | h
            · simp [h]
            · have := getLast_map_drop stack 0 d m o h.1 (by simp at hd ⊢; omega) (by simpa using h.2)
              simp [this]
      | characters str => exact ⟨_, _, rfl, rfl, rfl, rfl, hn, by simp⟩
      | cdata str => exact ⟨_, _, rfl, rfl, rfl, rfl, hn, by simp⟩
      | misc m =>
        obtain ⟨r, s', h1, h2⟩ := ih p hx hn
        refine ⟨r, s', h1, ?_⟩
        revert h2
        unfold NextOk
        simp only
        rintro ⟨h2, h3⟩
        refine ⟨h2, ?_⟩
        revert h3
        cases r with
        | error e => exact id
        | ok r =>
          obtain ⟨ev, q⟩ := r
          cases ev with
          | start a ns =>
            rintro ⟨n', a1, a2, a3, a4⟩
            exact ⟨n', a1, a2, a3, by simp; omega⟩
          | end_ m' =>
            rintro ⟨a1, a2, a3, a4, a5⟩
            exact ⟨a1, a2, a3, a4, by simp; omega⟩
          | chars _ =>
            rintro ⟨a1, a2, a3, a4⟩
            exact ⟨a1, a2, a3, by simp; omega⟩

theorem Sync.take {s : RState} {o : List QName} (h : Sync s o) : s.stack.take s.depth = s.stack := by
  rw [List.take_of_length_le]; rw [h.1]; exact Nat.le_refl _

theorem skipLoop_total (dbg : Bool) (target : Nat) (fuel : Nat) (s : RState) (o : List QName) (h : St s o)
    (ht : target ≤ s.depth) (hf : s.inner.items.length + 1 ≤ fuel) (hx : dbg = false ∨ Sync s o ∨ s.depth = target) :
    ∃ r s', skipLoop dbg target fuel s = .ok (r, s') ∧ s'.inner.final = s.inner.final ∧
      s'.inner.items.length ≤ s.inner.items.length ∧
      s'.stack.take target = s.stack.take target ∧ target ≤ s'.depth ∧
      ∃ o', St s' o' ∧ o'.drop (o'.length - target) = o.drop (o.length - target) ∧
        (r = .ok () → s'.depth = target ∧ s'.stack = s.stack.take target) := by
  induction fuel generalizing s o with
  | zero => omega
  | succ fuel ih =>
    unfold skipLoop
    by_cases hgt : s.depth > target
    · rw [if_pos hgt]
      have ho : o ≠ [] := by rintro rfl; have := h.depth; simp at this; omega
      have hx' : dbg = false ∨ Sync s o := by
        rcases hx with h | h | h
        · exact .inl h
        · exact .inr h
        · omega
      obtain ⟨r, s1, h1, h2, h3⟩ := next_total dbg s o h ho hx'
      rw [h1]
      cases r with
      | error e =>
        obtain ⟨a1, a2, a3, a4⟩ := h3
        refine ⟨_, _, rfl, h2, by simp [a3], by rw [a2], by omega, o, ⟨a4, by rw [a1]; exact h.depth, by rw [a1, a2]; exact h.le⟩, rfl, ?_⟩
        intro h; cases h
      | ok r =>
        obtain ⟨ev, q⟩ := r
        simp only
        -- one step
        have step : ∃ o1, St { s1 with stack := s1.stack.take s1.depth } o1 ∧ target ≤ s1.depth ∧
            s1.inner.items.length < s.inner.items.length ∧
            s1.stack.take target = s.stack.take target ∧
            o1.drop (o1.length - target) = o.drop (o.length - target) ∧
            (dbg = false ∨ Sync { s1 with stack := s1.stack.take s1.depth } o1) := by
          have hd := h.depth
          have hle := h.le
          cases ev with
          | start a ns =>
            obtain ⟨n, a1, a2, a3, a4⟩ := h3
            refine ⟨n :: o, ⟨a3, by simp [a1, hd], by simp [a1, a2]; omega⟩, by omega, a4, ?_, ?_, ?_⟩
            · rw [a2, List.take_append_of_le_length (by omega)]
            · rw [List.length_cons, show o.length + 1 - target = (o.length - target) + 1 by omega]; rfl
            · rcases hx' with h | h
              · exact .inl h
              · right
                have e1 := h.1
                have e2 := h.2
                constructor
                · simp [a1, a2, e1]
                · simp only [a1, a2]
                  rw [List.take_of_length_le (by simp [e1]), List.map_append, List.reverse_append, e2]
                  rfl
          | end_ n =>
            obtain ⟨a1, a2, a3, a4, a5⟩ := h3
            have hol : o.length = o.tail.length + 1 := by rw [a3]; simp
            refine ⟨o.tail, ⟨a4, by simp only; omega, by simp [a2]; omega⟩, by omega, a5, by rw [a2], ?_, ?_⟩
            · rw [a3]
              simp only [List.tail_cons, List.length_cons]
              rw [show o.tail.length + 1 - target = (o.tail.length - target) + 1 by omega]; rfl
            · rcases hx' with h | h
              · exact .inl h
              · right
                have e1 := h.1
                have e2 := h.2
                constructor
                · simp [a2, e1]; omega
                · simp only [a2]
                  have e3 : s.stack.map StackElem.name = o.tail.reverse ++ [n] := by
                    rw [← List.reverse_reverse (s.stack.map _), e2, a3]; simp
                  rw [List.map_take, e3, List.take_append_of_le_length (by simp; omega), List.take_of_length_le (by simp; omega)]
                  simp
          | chars str =>
            obtain ⟨a1, a2, a3, a4⟩ := h3
            refine ⟨o, ⟨a3, by simp [a1, hd], by simp [a1, a2]; omega⟩, by omega, a4, by rw [a2], rfl, ?_⟩
            rcases hx' with h | h
            · exact .inl h
            · right
              constructor
              · simp [a1, a2, h.1]
              · simp only [a1, a2]; rw [h.take]; exact h.2
        obtain ⟨o1, b1, b2, b3, b4, b5, b6⟩ := step
        obtain ⟨r, s', c1, c2, c3, c4, c5, o', c6, c8, c7⟩ := ih { s1 with stack := s1.stack.take s1.depth } o1 b1 b2 (by simp only; omega)
          (by rcases b6 with h | h; exact .inl h; exact .inr (.inl h))
        have e : (s1.stack.take s1.depth).take target = s.stack.take target := by
          rw [List.take_take, Nat.min_eq_left b2, b4]
        simp only at c2 c3 c4 c7
        rw [e] at c4 c7
        rw [b5] at c8
        refine ⟨r, s', c1, c2.trans h2, by omega, c4, c5, o', c6, c8, c7⟩
    · rw [if_neg hgt]
      have e : s.depth = target := by omega
      refine ⟨_, _, rfl, rfl, Nat.le_refl _, ?_, ht, o, ⟨h.nested, h.depth, ?_⟩, rfl, ?_⟩
      · simp only [e, List.take_take, Nat.min_self]
      · have := h.le; simp; omega
      · intro _
        exact ⟨e, by rw [e]⟩

theorem returnToDepth_total (dbg : Bool) (target : Nat) (s : RState) (o : List QName) (h : St s o)
    (ht : target ≤ s.depth) (hx : dbg = false ∨ Sync s o ∨ s.depth = target) :
    ∃ r s', returnToDepth dbg target s = .ok (r, s') ∧ s'.inner.final = s.inner.final ∧
      s'.inner.items.length ≤ s.inner.items.length ∧
      s'.stack.take target = s.stack.take target ∧ target ≤ s'.depth ∧
      ∃ o', St s' o' ∧ o'.drop (o'.length - target) = o.drop (o.length - target) ∧
        (r = .ok () → s'.depth = target ∧ s'.stack = s.stack.take target) := by
  unfold returnToDepth
  rw [if_neg (by simp; omega)]
  exact skipLoop_total dbg target _ s o h ht (Nat.le_refl _) hx

/-- State after reading (or failing to read) the element above `base`, whose names are `ot`. -/
structure After (s' s : RState) (base : List StackElem) (ot : List QName) : Prop where
  st : ∃ o', St s' o' ∧ o'.drop (o'.length - ot.length) = ot
  ge : base.length ≤ s'.depth
  take : s'.stack.take base.length = base
  final : s'.inner.final = s.inner.final
  len : s'.inner.items.length ≤ s.inner.items.length

/-- State after successfully reading the element `x` above `base`. -/
structure AfterOk (s' s : RState) (base : List StackElem) (x : StackElem) (o : List QName) : Prop where
  st : St s' o.tail
  depth : s'.depth = base.length
  stack : s'.stack = base ++ [x]
  final : s'.inner.final = s.inner.final
  len : s'.inner.items.length ≤ s.inner.items.length

theorem drop_tail {o : List QName} (ho : o ≠ []) : o.drop (o.length - o.tail.length) = o.tail := by
  cases o with
  | nil => exact absurd rfl ho
  | cons n o => rw [List.length_cons, List.tail_cons, show o.length + 1 - o.length = 1 by omega]; rfl

theorem drop_cons_tail (n : QName) {o : List QName} (ho : o ≠ []) : (n :: o).drop ((n :: o).length - o.tail.length) = o.tail := by
  cases o with
  | nil => exact absurd rfl ho
  | cons m o =>
    simp only [List.length_cons, List.tail_cons]
    rw [show o.length + 1 + 1 - o.length = 2 by omega]; rfl

theorem drop_to_tail {o o' : List QName} (ho : o ≠ []) (h : o'.drop (o'.length - o.length) = o) :
    o'.drop (o'.length - o.tail.length) = o.tail := by
  cases o with
  | nil => exact absurd rfl ho
  | cons n o =>
    simp only [List.tail_cons] at h ⊢
    have hl := congrArg List.length h
    simp at hl
    have : (o'.drop (o'.length - (n :: o).length)).drop 1 = o := by rw [h]; rfl
    rw [List.drop_drop] at this
    rw [show o'.length - o.length = o'.length - (n :: o).length + 1 by simp; omega]
    exact this

theorem Inside.sync {s : RState} {base x o} (hin : Inside s base x) (hn : ((base ++ [x]).map StackElem.name).reverse = o) : Sync s o :=
  ⟨by rw [hin.depth, hin.stack]; simp, by rw [hin.stack]; exact hn⟩

theorem readString_total (dbg : Bool) (er : ElemReader) (base : List StackElem) (x : StackElem) (o : List QName)
    (he : er.stackPos = base.length) (hn : ((base ++ [x]).map StackElem.name).reverse = o)
    (fuel : Nat) (out : String) (s : RState) (hin : Inside s base x) (h : St s o)
    (hf : s.inner.items.length + 1 ≤ fuel) :
    ∃ r s', readString dbg er fuel out s = .ok (r, s') ∧ After s' s base o.tail ∧
      (∀ t, r = .ok t → AfterOk s' s base x o) := by
  induction fuel generalizing out s with
  | zero => omega
  | succ fuel ih =>
    have ho : o ≠ [] := by rw [← hn]; simp
    unfold readString
    rw [if_neg (by simp [he, hin.stack])]
    obtain ⟨r, s1, h1, h2, h3⟩ := next_total dbg s o h ho (.inr (hin.sync hn))
    rw [h1]
    have hd := hin.depth
    have hs := hin.stack
    cases r with
    | error e =>
      obtain ⟨a1, a2, a3, a4⟩ := h3
      refine ⟨_, _, rfl, ⟨⟨o, ⟨a4, by rw [a1]; exact h.depth, by rw [a1, a2]; exact h.le⟩, drop_tail ho⟩, by omega, by rw [a2, hs]; simp, h2, by simp [a3]⟩, ?_⟩
      intro t ht; cases ht
    | ok r =>
      obtain ⟨ev, q⟩ := r
      cases ev with
      | start a ns =>
        obtain ⟨n, a1, a2, a3, a4⟩ := h3
        simp only [a2, List.getLast?_append, List.getLast?_singleton, Option.some_or]
        refine ⟨_, _, rfl, ⟨⟨n :: o, ⟨a3, by simp [a1, h.depth], by simp [a1, a2, hd, hs]⟩, drop_cons_tail n ho⟩, by omega, by rw [a2, hs]; simp, h2, by omega⟩, ?_⟩
        intro t ht; cases ht
      | end_ n =>
        obtain ⟨a1, a2, a3, a4, a5⟩ := h3
        have hst : St s1 o.tail := ⟨a4, by have := h.depth; simp; omega, by rw [a2, hs]; simp; omega⟩
        refine ⟨_, _, rfl, ⟨⟨_, hst, by simp⟩, by omega, by rw [a2, hs]; simp, h2, by omega⟩, ?_⟩
        intro t _
        exact ⟨hst, by omega, by rw [a2, hs], h2, by omega⟩
      | chars str =>
        obtain ⟨a1, a2, a3, a4⟩ := h3
        obtain ⟨r, s', b1, b2, b3⟩ := ih (if out.isEmpty then str else out ++ str) s1 ⟨by rw [a1, hd], by rw [a2, hs]⟩
          ⟨a3, by rw [a1]; exact h.depth, by rw [a1, a2]; exact h.le⟩ (by omega)
        refine ⟨r, s', b1, ⟨b2.st, b2.ge, b2.take, b2.final.trans h2, ?_⟩, ?_⟩
        · have := b2.len; omega
        · intro t ht
          have := b3 t ht
          exact ⟨this.st, this.depth, this.stack, this.final.trans h2, by have := this.len; omega⟩

theorem visitAttrs_total {σ : Type} {I : σ → Prop} (V : Visitor σ) (T : TotalOn I V) (stack : List StackElem) (pos : Pos) (l : List XAttr)
    (v : σ) (hv : I v) : ∃ v' r, visitAttrs V stack pos l v = .ok (v', r) ∧ I v' := by
  induction l generalizing v with
  | nil => exact ⟨_, _, rfl, hv⟩
  | cons a l ih =>
    unfold visitAttrs
    obtain ⟨v', r, hr, hI⟩ := T.attr v a.name.expanded a.value hv
    rw [hr]
    cases r with
    | error e => exact ⟨_, _, rfl, hI⟩
    | ok u => exact ih v' hI

theorem readLoop_total {σ : Type} {I : σ → Prop} (dbg : Bool) (V : Visitor σ) (H : dbg = false ∨ NoSwallow V) (T : TotalOn I V)
    (fuel : Nat) (base : List StackElem) (x : StackElem) (o : List QName) (er : ElemReader)
    (he : er.stackPos = base.length) (hn : ((base ++ [x]).map StackElem.name).reverse = o)
    (v : σ) (hv : I v) (s : RState) (hin : Inside s base x) (h : St s o)
    (hf : s.inner.items.length + 1 ≤ fuel) :
    ∃ v' r s', readLoop dbg V fuel er v s = .ok (v', r, s') ∧ I v' ∧ After s' s base o.tail ∧
      (∀ t, r = .ok t → AfterOk s' s base x o) := by
  induction fuel generalizing base x o er v s with
  | zero => omega
  | succ fuel ih =>
    have ho : o ≠ [] := by rw [← hn]; simp
    unfold readLoop
    rw [if_neg (by simp [he, hin.stack])]
    obtain ⟨r, s1, h1, h2, h3⟩ := next_total dbg s o h ho (.inr (hin.sync hn))
    rw [h1]
    have hd := hin.depth
    have hs := hin.stack
    cases r with
    | error e =>
      obtain ⟨a1, a2, a3, a4⟩ := h3
      refine ⟨_, _, _, rfl, hv, ⟨⟨o, ⟨a4, by rw [a1]; exact h.depth, by rw [a1, a2]; exact h.le⟩, drop_tail ho⟩, by omega, by rw [a2, hs]; simp, h2, by simp [a3]⟩, ?_⟩
      intro t ht; cases ht
    | ok r =>
      obtain ⟨ev, q⟩ := r
      cases ev with
      | end_ n =>
        obtain ⟨a1, a2, a3, a4, a5⟩ := h3
        have hst : St s1 o.tail := ⟨a4, by have := h.depth; simp; omega, by rw [a2, hs]; simp; omega⟩
        refine ⟨_, _, _, rfl, hv, ⟨⟨_, hst, by simp⟩, by omega, by rw [a2, hs]; simp, h2, by omega⟩, ?_⟩
        intro t _
        exact ⟨hst, by omega, by rw [a2, hs], h2, by omega⟩
      | chars str =>
        obtain ⟨a1, a2, a3, a4⟩ := h3
        have hin1 : Inside s1 base x := ⟨by rw [a1, hd], by rw [a2, hs]⟩
        have hst1 : St s1 o := ⟨a3, by rw [a1]; exact h.depth, by rw [a1, a2]; exact h.le⟩
        simp only
        obtain ⟨v', r, hr, hv'⟩ := T.chars v str q hv
        rw [hr]
        cases r with
        | error e =>
          refine ⟨_, _, _, rfl, hv', ⟨⟨o, hst1, drop_tail ho⟩, by omega, by rw [a2, hs]; simp, h2, by omega⟩, ?_⟩
          intro t ht; cases ht
        | ok u =>
          obtain ⟨v'', r, s', b1, b0, b2, b3⟩ := ih base x o er he hn v' hv' s1 hin1 hst1 (by omega)
          refine ⟨v'', r, s', b1, b0, ⟨b2.st, b2.ge, b2.take, b2.final.trans h2, ?_⟩, ?_⟩
          · have := b2.len; omega
          · intro t ht
            have := b3 t ht
            exact ⟨this.st, this.depth, this.stack, this.final.trans h2, by have := this.len; omega⟩
      | start a ns =>
        obtain ⟨n, a1, a2, a3, a4⟩ := h3
        simp only [he]
        have hst1 : s1.stack = base ++ [x] ++ [⟨n, q⟩] := by rw [a2, hs]
        have hin1 : Inside s1 (base ++ [x]) ⟨n, q⟩ := ⟨by rw [a1, hd]; simp, hst1⟩
        have hSt1 : St s1 (n :: o) := ⟨a3, by simp [a1, h.depth], by rw [a1, hd, hst1]; simp⟩
        have hn1 : ((base ++ [x] ++ [(⟨n, q⟩ : StackElem)]).map StackElem.name).reverse = n :: o := by
          rw [List.map_append, List.reverse_append, hn]; rfl
        rw [show s1.stack[base.length + 1]? = some (⟨n, q⟩ : StackElem) by rw [hst1]; simp]
        simp only
        have hol : o.length = base.length + 1 := by have := h.depth; omega
        have after : ∀ (r : Except Fault (σ × Except VErr Unit)) (s2 : RState) (o2 : List QName), (∃ v' y, r = .ok (v', y) ∧ I v') →
            St s2 o2 → o2.drop (o2.length - o.length) = o → base.length + 1 ≤ s2.depth →
            s2.stack.take (base.length + 1) = base ++ [x] → s2.inner.final = s1.inner.final →
            s2.inner.items.length ≤ s1.inner.items.length →
            (dbg = false ∨ Sync s2 o2 ∨ s2.depth = base.length + 1 ∨ (∀ v', r ≠ .ok (v', .ok ()))) →
            ∃ v' r' s', ((match (Except.ok (r, s2) : Except Fault (Except Fault (σ × Except VErr Unit) × RState)) with
              | .error f => .error f
              | .ok (.error f, _) => .error f
              | .ok (.ok (v, .error e), s) => .ok (v, .error (.propagate (e.toError s.stack q)), s)
              | .ok (.ok (v, .ok ()), s) =>
                match returnToDepth dbg (base.length + 1) s with
                | .error f => .error f
                | .ok (.error e, s) => .ok (v, .error (.propagate e), s)
                | .ok (.ok (), s) => readLoop dbg V fuel er v s) : Except Fault (σ × Except VErr ReadToOk × RState)) = .ok (v', r', s') ∧ I v' ∧ After s' s base o.tail ∧
              (∀ t, r' = .ok t → AfterOk s' s base x o) := by
          intro r s2 o2 hr hSt2 hdrop hge htake hfin hlen hx
          have htk : s2.stack.take base.length = base := by
            have := congrArg (List.take base.length) htake
            rw [List.take_take] at this
            simpa using this
          obtain ⟨v2, r, rfl, hv2⟩ := hr
          cases r with
          | error e =>
            refine ⟨_, _, _, rfl, hv2, ⟨⟨o2, hSt2, drop_to_tail ho hdrop⟩, by omega, htk, hfin.trans h2, by omega⟩, ?_⟩
            intro t ht; cases ht
          | ok u =>
            simp only
            obtain ⟨r, s3, c1, c2, c3, c4, c5, o3, c6, c8, c7⟩ := returnToDepth_total dbg (base.length + 1) s2 o2 hSt2 hge (by
              rcases hx with h | h | h | h
              · exact .inl h
              · exact .inr (.inl h)
              · exact .inr (.inr h)
              · exact absurd rfl (h v2))
            rw [c1]
            cases r with
            | error e =>
              rw [← hol, hdrop] at c8
              refine ⟨_, _, _, rfl, hv2, ⟨⟨o3, c6, drop_to_tail ho c8⟩, by omega, ?_, c2.trans (hfin.trans h2), by omega⟩, ?_⟩
              · have := congrArg (List.take base.length) c4
                rw [htake, List.take_take] at this
                simpa using this
              · intro t ht; cases ht
            | ok u =>
              obtain ⟨d1, d2⟩ := c7 rfl
              rw [← hol, hdrop] at c8
              have d3 : o3 = o := by
                rw [show o3.length - o.length = 0 by have := c6.depth; omega] at c8
                exact c8
              subst d3
              rw [htake] at d2
              obtain ⟨v', r, s', b1, b0, b2, b3⟩ := ih base x o3 er he hn v2 hv2 s3 ⟨d1, d2⟩ c6 (by omega)
              have hfin' : s3.inner.final = s.inner.final := c2.trans (hfin.trans h2)
              refine ⟨v', r, s', b1, b0, ⟨b2.st, b2.ge, b2.take, b2.final.trans hfin', ?_⟩, ?_⟩
              · have := b2.len; omega
              · intro t ht
                have := b3 t ht
                exact ⟨this.st, this.depth, this.stack, this.final.trans hfin', by have := this.len; omega⟩
        have hNS : dbg = false ∨ Action.NoSwallow (fun r => ∀ v', r ≠ Except.ok (v', Except.ok ()))
            (V.onElem v { name := n, ns := ns, depth := base.length + 1 + 1 }) := by
          rcases H with h | h
          · exact .inl h
          · exact .inr (h _ _)
        have hT := T.elem v { name := n, ns := ns, depth := base.length + 1 + 1 } hv
        have hfirst : ∀ r, (∃ v' y, r = Except.ok (v', y) ∧ I v') → _ := fun r hr => after r s1 (n :: o) hr hSt1 (by
          rw [List.length_cons, show o.length + 1 - o.length = 1 by omega]; rfl) (by rw [a1]; omega)
          (by rw [hst1]; exact List.take_left' (by simp)) rfl (Nat.le_refl _) (.inr (.inl (hin1.sync hn1)))
        have hlater := fun (r : Except Fault (σ × Except VErr Unit)) (s2 : RState) (hr : ∃ v' y, r = Except.ok (v', y) ∧ I v')
            (hA : After s2 s1 (base ++ [x]) o)
            (hx : dbg = false ∨ s2.depth = base.length + 1 ∨ (∀ v', r ≠ .ok (v', .ok ()))) =>
          after r s2 hA.st.choose hr hA.st.choose_spec.1 hA.st.choose_spec.2 (by have := hA.ge; simpa using this)
            (by have := hA.take; simpa using this) hA.final hA.len (by
            rcases hx with h | h | h
            · exact .inl h
            · exact .inr (.inr (.inl h))
            · exact .inr (.inr (.inr h)))
        cases hact : V.onElem v { name := n, ns := ns, depth := base.length + 1 + 1 } with
        | done r =>
          rw [hact] at hT
          exact hfirst r hT
        | readString k =>
          rw [hact] at hT hNS
          obtain ⟨r, s2, e1, e2, e3⟩ := readString_total dbg { ns := ns, attrs := a, stackPos := base.length + 1 }
            (base ++ [x]) ⟨n, q⟩ (n :: o) (by simp) hn1 fuel "" s1 hin1 hSt1 (by omega)
          simp only
          rw [e1]
          refine hlater (k r) s2 (hT r) e2 ?_
          cases r with
          | ok t => right; left; rw [(e3 t rfl).depth]; simp
          | error e =>
            rcases hNS with h | h
            · exact .inl h
            · exact .inr (.inr (h e))
        | readTo sub k =>
          rw [hact] at hT hNS
          simp only
          obtain ⟨sub', r, hr, hI⟩ := visitAttrs_total V T s1.stack q a sub hT.1
          rw [hr]
          cases r with
          | error e => exact hfirst (k sub' (.error e)) (hT.2 _ _ hI)
          | ok u =>
            simp only
            obtain ⟨sub'', r, s2, e1, hI2, e2, e3⟩ := ih (base ++ [x]) ⟨n, q⟩ (n :: o) { ns := ns, attrs := a, stackPos := base.length + 1 }
              (by simp) hn1 sub' hI s1 hin1 hSt1 (by omega)
            rw [e1]
            refine hlater (k sub'' r) s2 (hT.2 _ r hI2) e2 ?_
            cases r with
            | ok t => right; left; rw [(e3 t rfl).depth]; simp
            | error e =>
              rcases hNS with h | h
              · exact .inl h
              · exact .inr (.inr (h _ e))

theorem runDeser_total {σ α : Type} {I : σ → Prop} (dbg : Bool) (V : Visitor σ) (D : Deser σ α)
    (H : dbg = false ∨ NoSwallow V ∧ DeserNoSwallow D) (T : TotalOn I V) (TD : DeserTotalOn I D)
    (er : ElemReader) (x : StackElem) (he : er.stackPos = 0) (fuel : Nat) (s : RState)
    (hin : Inside s [] x) (h : St s [x.name]) (hf : s.inner.items.length + 1 ≤ fuel) :
    ∃ r s', runDeser dbg V D fuel er s = .ok (r, s') ∧ s'.inner.final = s.inner.final ∧
      ∃ o', St s' o' ∧ (∀ a, r = .ok a → dbg = false ∨ Sync s' o' ∨ s'.depth = 0) := by
  have H' : dbg = false ∨ NoSwallow V := by
    rcases H with h | h
    · exact .inl h
    · exact .inr h.1
  have hn : (([] ++ [x]).map StackElem.name).reverse = [x.name] := rfl
  unfold runDeser
  simp only [he]
  rw [show s.stack[0]? = some x by rw [hin.stack]; rfl]
  simp only
  have hNS : dbg = false ∨ Action.NoSwallow (fun r => ∀ a, r ≠ Except.ok (Except.ok a))
      (D { name := x.name, ns := er.ns, depth := 0 + 1 }) := by
    rcases H with h | h
    · exact .inl h
    · exact .inr (h.2 _)
  have hT := TD { name := x.name, ns := er.ns, depth := 0 + 1 }
  have hfirst : ∀ r : Except Fault (Except VErr α), (∃ y, r = .ok y) →
      ∃ r' s', ((match (Except.ok (r, s) : Except Fault (Except Fault (Except VErr α) × RState)) with
        | .error f => .error f
        | .ok (.error f, _) => .error f
        | .ok (.ok r, s) => .ok (r, s)) : Except Fault (Except VErr α × RState)) = .ok (r', s') ∧ s'.inner.final = s.inner.final ∧
      ∃ o', St s' o' ∧ (∀ a, r' = .ok a → dbg = false ∨ Sync s' o' ∨ s'.depth = 0) := by
    rintro r ⟨y, rfl⟩
    exact ⟨_, _, rfl, rfl, _, h, fun _ _ => .inr (.inl (hin.sync hn))⟩
  have hlater : ∀ (r : Except Fault (Except VErr α)) (s2 : RState), (∃ y, r = .ok y) → After s2 s [] [] →
      (dbg = false ∨ s2.depth = 0 ∨ (∀ a, r ≠ .ok (.ok a))) →
      ∃ r' s', ((match (Except.ok (r, s2) : Except Fault (Except Fault (Except VErr α) × RState)) with
        | .error f => .error f
        | .ok (.error f, _) => .error f
        | .ok (.ok r, s) => .ok (r, s)) : Except Fault (Except VErr α × RState)) = .ok (r', s') ∧ s'.inner.final = s.inner.final ∧
      ∃ o', St s' o' ∧ (∀ a, r' = .ok a → dbg = false ∨ Sync s' o' ∨ s'.depth = 0) := by
    rintro r s2 ⟨y, rfl⟩ hA hx
    obtain ⟨o', g1, _⟩ := hA.st
    refine ⟨_, _, rfl, hA.final, o', g1, ?_⟩
    intro a ha
    subst ha
    rcases hx with h | h | h
    · exact .inl h
    · exact .inr (.inr h)
    · exact absurd rfl (h a)
  cases hact : D { name := x.name, ns := er.ns, depth := 0 + 1 } with
  | done r =>
    rw [hact] at hT
    exact hfirst r hT
  | readString k =>
    rw [hact] at hT hNS
    obtain ⟨r, s2, e1, e2, e3⟩ := readString_total dbg er [] x [x.name] (by simp [he]) hn fuel "" s hin h hf
    simp only
    rw [e1]
    refine hlater (k r) s2 (hT r) e2 ?_
    cases r with
    | ok t => right; left; rw [(e3 t rfl).depth]; rfl
    | error e =>
      rcases hNS with h | h
      · exact .inl h
      · exact .inr (.inr (h e))
  | readTo sub k =>
    rw [hact] at hT hNS
    simp only
    unfold readTo
    rw [he, show s.stack[0]? = some x by rw [hin.stack]; rfl]
    simp only
    obtain ⟨sub', r, hr, hI⟩ := visitAttrs_total V T s.stack x.pos er.attrs sub hT.1
    rw [hr]
    cases r with
    | error e => exact hfirst (k sub' (.error e)) (hT.2 _ _ hI)
    | ok u =>
      simp only
      obtain ⟨sub'', r, s2, e1, hI2, e2, e3⟩ := readLoop_total dbg V H' T fuel [] x [x.name] er
        (by simp [he]) hn sub' hI s hin h hf
      rw [e1]
      refine hlater (k sub'' r) s2 (hT.2 _ r hI2) e2 ?_
      cases r with
      | ok t => right; left; rw [(e3 t rfl).depth]; rfl
      | error e =>
        rcases hNS with h | h
        · exact .inl h
        · exact .inr (.inr (h _ e))

theorem prolog_next (dbg : Bool) (items : List (XEvent × Pos)) (final : Final) (finalPos : Pos)
    (h : Prolog items final) :
    (∃ m p, final = .err m p ∧ nextLoop dbg final finalPos 0 [] items =
      .ok (.error { kind := .xml m, stack := [], pos := p }, { inner := { pos := finalPos, items := [], final, finalPos }, depth := 0, stack := [] })) ∨
    (∃ n a ns p l, Nested [n] l final ∧ nextLoop dbg final finalPos 0 [] items =
      .ok (.ok (.start a ns, p), { inner := { pos := p, items := l, final, finalPos }, depth := 1, stack := [⟨n, p⟩] })) := by
  induction items with
  | nil =>
    obtain ⟨m, p, rfl⟩ := h
    exact .inl ⟨m, p, rfl, rfl⟩
  | cons e l ih =>
    obtain ⟨e, q⟩ := e
    cases e with
    | misc m => exact ih h
    | startElement n a ns => exact .inr ⟨n, a, ns, q, l, h, rfl⟩
    | startDocument => exact absurd h id
    | endElement _ => exact absurd h id
    | characters _ => exact absurd h id
    | cdata _ => exact absurd h id

theorem read_totalOn {σ α : Type} {I : σ → Prop} (dbg : Bool) (V : Visitor σ) (D : Deser σ α)
    (H : dbg = false ∨ NoSwallow V ∧ DeserNoSwallow D) (T : TotalOn I V) (TD : DeserTotalOn I D)
    (i : Input) (h : Conforming i) : ∃ r, read dbg V D i = .ok r := by
  obtain ⟨items, final, finalPos⟩ := i
  unfold read root Input.start
  cases items with
  | nil =>
    obtain ⟨m, p, hm⟩ := h
    simp only at hm
    subst hm
    exact ⟨_, rfl⟩
  | cons e l =>
    obtain ⟨e, q⟩ := e
    cases e with
    | startDocument =>
      have hp : Prolog l final := h
      simp only
      unfold next
      simp only [List.length_nil, bne_self_eq_false, Bool.and_false, Bool.false_eq_true, if_false]
      rcases prolog_next dbg l final finalPos hp with ⟨m, p, rfl, h1⟩ | ⟨n, a, ns, p, l', hN, h1⟩
      · rw [h1]; exact ⟨_, rfl⟩
      · rw [h1]
        simp only
        obtain ⟨r, s', g1, g2, o', g3, g4⟩ := runDeser_total dbg V D H T TD { ns := ns, attrs := a, stackPos := 0 } ⟨n, p⟩ rfl
          (l'.length + 1) { inner := { pos := p, items := l', final, finalPos }, depth := 1, stack := [⟨n, p⟩] } ⟨rfl, rfl⟩
          ⟨hN, rfl, by simp⟩ (Nat.le_refl _)
        rw [g1]
        cases r with
        | error e => exact ⟨_, rfl⟩
        | ok v =>
          simp only
          unfold endDoc
          obtain ⟨r, s2, c1, _⟩ := returnToDepth_total dbg 0 s' o' g3 (Nat.zero_le _) (g4 v rfl)
          rw [c1]
          cases r with
          | error e => exact ⟨_, rfl⟩
          | ok u =>
            simp only
            cases endLoop s2.inner.final s2.inner.finalPos s2.inner.items with
            | error e => exact ⟨_, rfl⟩
            | ok u => exact ⟨_, rfl⟩
    | misc m => exact absurd h id
    | startElement n a ns => exact absurd h id
    | endElement _ => exact absurd h id
    | characters _ => exact absurd h id
    | cdata _ => exact absurd h id

theorem read_total {σ α : Type} (dbg : Bool) (V : Visitor σ) (D : Deser σ α)
    (H : dbg = false ∨ NoSwallow V ∧ DeserNoSwallow D) (T : Total V) (TD : DeserTotal D)
    (i : Input) (h : Conforming i) : ∃ r, read dbg V D i = .ok r := by
  refine read_totalOn (I := fun _ => True) dbg V D H ⟨?_, ?_, ?_⟩ ?_ i h
  · intro v n s _
    obtain ⟨⟨v', r⟩, hr⟩ := T.attr v n s
    exact ⟨v', r, hr, trivial⟩
  · intro v s p _
    obtain ⟨⟨v', r⟩, hr⟩ := T.chars v s p
    exact ⟨v', r, hr, trivial⟩
  · intro v i _
    have := T.elem v i
    revert this
    cases V.onElem v i with
    | done r => rintro ⟨⟨v', x⟩, h⟩; exact ⟨v', x, h, trivial⟩
    | readString k => intro h r; obtain ⟨⟨v', x⟩, h⟩ := h r; exact ⟨v', x, h, trivial⟩
    | readTo sub k => intro h; exact ⟨trivial, fun sub r _ => by obtain ⟨⟨v', x⟩, h⟩ := h sub r; exact ⟨v', x, h, trivial⟩⟩
  · intro i
    have := TD i
    revert this
    cases D i with
    | done r => exact id
    | readString k => exact id
    | readTo sub k => exact fun h => ⟨trivial, fun sub r _ => h sub r⟩

end SX
