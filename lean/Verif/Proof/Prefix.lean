import Verif.Spec.Prefix

/-
Two runs of the reader over inputs that begin alike go alike until the shorter input is used up.
-/
namespace SX.Prefix
open Spec

/-- The state of the reader if more had been to come. -/
def ext (more : List (XEvent × Pos)) (final : Final) (finalPos : Pos) (s : RState) : RState :=
  { s with inner := { s.inner with items := s.inner.items ++ more, final, finalPos } }

theorem ext_stack (more : List (XEvent × Pos)) (final : Final) (finalPos : Pos) (s : RState) : (ext more final finalPos s).stack = s.stack := rfl

structure Good (m : XmlErr) (p : Pos) (T : List StackElem) (s : RState) : Prop where
  fin : s.inner.final = .err m p
  le : s.depth ≤ s.stack.length
  opn : openAfter (s.stack.take s.depth) s.inner.items = T

variable {more : List (XEvent × Pos)} {final : Final} {finalPos : Pos} {m : XmlErr} {p : Pos} {T : List StackElem}

theorem nextLoop_cut (dbg : Bool) (fp : Pos) (depth : Nat) (stack : List StackElem) (hl : stack.length = depth)
    (items : List (XEvent × Pos)) (hT : openAfter stack items = T) :
    (∃ s', nextLoop dbg (.err m p) fp depth stack items = .ok (.error ⟨.xml m, T, p⟩, s')) ∨
    (∃ f, nextLoop dbg (.err m p) fp depth stack items = .error f ∧ nextLoop dbg final finalPos depth stack (items ++ more) = .error f) ∨
    ∃ e q s', nextLoop dbg (.err m p) fp depth stack items = .ok (.ok (e, q), s') ∧
      nextLoop dbg final finalPos depth stack (items ++ more) = .ok (.ok (e, q), ext more final finalPos s') ∧
      Good m p T s' ∧ s'.inner.items.length < items.length ∧
      (match e with
        | .start _ _ => s'.depth = depth + 1 ∧ s'.stack.length = s'.depth
        | .end_ _ => s'.depth + 1 = depth
        | .chars _ => s'.depth = depth ∧ s'.stack.length = s'.depth) := by
  induction items with
  | nil =>
    refine .inl ⟨{ inner := ⟨fp, [], .err m p, fp⟩, depth, stack }, ?_⟩
    rw [nextLoop]
    simp only [openAfter] at hT
    rw [hT]
  | cons x items ih =>
    obtain ⟨e, q⟩ := x
    cases e with
    | startDocument =>
      rcases ih hT with h | h | ⟨e, q, s', h1, h2, h3, h4, h5⟩
      · exact .inl h
      · exact .inr (.inl h)
      · exact .inr (.inr ⟨e, q, s', h1, h2, h3, Nat.lt_succ_of_lt h4, h5⟩)
    | misc x =>
      rcases ih hT with h | h | ⟨e, q, s', h1, h2, h3, h4, h5⟩
      · exact .inl h
      · exact .inr (.inl h)
      · exact .inr (.inr ⟨e, q, s', h1, h2, h3, Nat.lt_succ_of_lt h4, h5⟩)
    | characters s =>
      refine .inr (.inr ⟨.chars s, q, _, rfl, rfl, ⟨rfl, by simp [hl], ?_⟩, by simp, rfl, hl⟩)
      have hT' : openAfter stack items = T := hT
      simpa only [← hl, List.take_length] using hT'
    | cdata s =>
      refine .inr (.inr ⟨.chars s, q, _, rfl, rfl, ⟨rfl, by simp [hl], ?_⟩, by simp, rfl, hl⟩)
      have hT' : openAfter stack items = T := hT
      simpa only [← hl, List.take_length] using hT'
    | startElement name attrs ns =>
      refine .inr (.inr ⟨.start attrs ns, q, _, rfl, rfl, ⟨rfl, by simp [hl], ?_⟩, by simp, rfl, by simp [hl]⟩)
      have : (stack ++ [({ name, pos := q } : StackElem)]).take (depth + 1) = stack ++ [{ name, pos := q }] := by
        rw [List.take_of_length_le (by simp [hl])]
      have hT' : openAfter (stack ++ [{ name, pos := q }]) items = T := hT
      simpa only [this] using hT'
    | endElement name =>
      cases depth with
      | zero => exact .inr (.inl ⟨.panic, rfl, rfl⟩)
      | succ d =>
        by_cases hc : (dbg && (stack[d]?.map StackElem.name != some name)) = true
        · refine .inr (.inl ⟨.panic, ?_, ?_⟩)
          · rw [nextLoop]; simp only [hc, if_true]
          · rw [List.cons_append, nextLoop]; simp only [hc, if_true]
        · refine .inr (.inr ⟨.end_ name, q, { inner := ⟨q, items, .err m p, fp⟩, depth := d, stack }, ?_, ?_, ⟨rfl, by simp [hl], ?_⟩, by simp, rfl⟩)
          · rw [nextLoop]; simp only [hc]; rfl
          · rw [List.cons_append, nextLoop]; simp only [hc]; rfl
          · simp only [openAfter] at hT
            rw [List.dropLast_eq_take, hl] at hT
            exact hT

theorem next_cut (dbg : Bool) (s : RState) (hg : Good m p T s) (hl : s.stack.length = s.depth) :
    (∃ s', next dbg s = .ok (.error ⟨.xml m, T, p⟩, s')) ∨
    (∃ f, next dbg s = .error f ∧ next dbg (ext more final finalPos s) = .error f) ∨
    ∃ e q s', next dbg s = .ok (.ok (e, q), s') ∧ next dbg (ext more final finalPos s) = .ok (.ok (e, q), ext more final finalPos s') ∧
      Good m p T s' ∧ s'.inner.items.length < s.inner.items.length ∧
      (match e with
        | .start _ _ => s'.depth = s.depth + 1 ∧ s'.stack.length = s'.depth
        | .end_ _ => s'.depth + 1 = s.depth
        | .chars _ => s'.depth = s.depth ∧ s'.stack.length = s'.depth) := by
  have hc : (dbg && s.stack.length != s.depth) = false := by rw [hl]; simp
  have h1 : next dbg s = nextLoop dbg (.err m p) s.inner.finalPos s.depth s.stack s.inner.items := by
    unfold next
    rw [hc, hg.fin]
    rfl
  have h2 : next dbg (ext more final finalPos s) = nextLoop dbg final finalPos s.depth s.stack (s.inner.items ++ more) := by
    unfold next
    change (if (dbg && s.stack.length != s.depth) = true then _ else _) = _
    rw [hc]
    rfl
  rw [h1, h2]
  have := hg.opn
  rw [← hl, List.take_length] at this
  exact nextLoop_cut dbg _ _ _ hl _ this

theorem good_take {s : RState} (hg : Good m p T s) : Good m p T { s with stack := s.stack.take s.depth } where
  fin := hg.fin
  le := by simp [Nat.min_eq_left hg.le]
  opn := by simpa [List.take_take] using hg.opn

theorem skipLoop_cut (dbg : Bool) (target : Nat) (fc : Nat) : ∀ (fw : Nat) (s : RState), Good m p T s → (s.depth > target → s.stack.length = s.depth) →
    s.inner.items.length < fc → (s.inner.items ++ more).length < fw →
    (∃ s', skipLoop dbg target fc s = .ok (.error ⟨.xml m, T, p⟩, s')) ∨
    (∃ f, skipLoop dbg target fc s = .error f ∧ skipLoop dbg target fw (ext more final finalPos s) = .error f) ∨
    ∃ s', skipLoop dbg target fc s = .ok (.ok (), s') ∧ skipLoop dbg target fw (ext more final finalPos s) = .ok (.ok (), ext more final finalPos s') ∧
      Good m p T s' ∧ s'.stack.length = s'.depth ∧ s'.inner.items.length ≤ s.inner.items.length ∧ s'.depth ≤ target ∧ (target ≤ s.depth → s'.depth = target) := by
  induction fc with
  | zero => intro fw s _ _ h; exact absurd h (Nat.not_lt_zero _)
  | succ fc ih =>
    intro fw s hg hl h1 h2
    cases fw with
    | zero => exact absurd h2 (Nat.not_lt_zero _)
    | succ fw =>
      rw [skipLoop, skipLoop]
      change _ ∨ (∃ f, _ ∧ (if s.depth > target then _ else _) = _) ∨ (∃ s', _ ∧ (if s.depth > target then _ else _) = _ ∧ _)
      by_cases hd : s.depth > target
      · simp only [hd, if_true]
        rcases next_cut (more := more) (final := final) (finalPos := finalPos) dbg s hg (hl hd) with ⟨s', h⟩ | ⟨f, h, h'⟩ | ⟨e, q, s', h, h', hg', hlt, hm⟩
        · rw [h]; exact .inl ⟨s', rfl⟩
        · rw [h, h']; exact .inr (.inl ⟨f, rfl, rfl⟩)
        · rw [h, h']
          have hlen : (s'.stack.take s'.depth).length = s'.depth := by simp [Nat.min_eq_left hg'.le]
          have htd : target ≤ s'.depth := by
            cases e with
            | start a b => have := hm.1; omega
            | end_ a => change s'.depth + 1 = s.depth at hm; omega
            | chars a => have := hm.1; omega
          have hl2 : (s'.inner.items ++ more).length < fw := by
            rw [List.length_append] at h2 ⊢
            omega
          rcases ih fw { s' with stack := s'.stack.take s'.depth } (good_take hg') (fun _ => hlen) (Nat.lt_of_lt_of_le hlt (Nat.le_of_lt_succ h1)) hl2 with
            ⟨s'', h⟩ | ⟨f, h, h'⟩ | ⟨s'', h, h', h3, h4, h5, h6, h7⟩
          · exact .inl ⟨s'', h⟩
          · exact .inr (.inl ⟨f, h, h'⟩)
          · exact .inr (.inr ⟨s'', h, h', h3, h4, Nat.le_trans h5 (Nat.le_of_lt hlt), h6, fun _ => h7 htd⟩)
      · simp only [hd, if_false]
        refine .inr (.inr ⟨_, rfl, rfl, good_take hg, ?_, Nat.le_refl _, Nat.le_of_not_gt hd, fun h => Nat.le_antisymm (Nat.le_of_not_gt hd) h⟩)
        simp [Nat.min_eq_left hg.le]

theorem returnToDepth_cut (dbg : Bool) (target : Nat) (s : RState) (hg : Good m p T s) (hl : s.depth > target → s.stack.length = s.depth) :
    (∃ s', returnToDepth dbg target s = .ok (.error ⟨.xml m, T, p⟩, s')) ∨
    (∃ f, returnToDepth dbg target s = .error f ∧ returnToDepth dbg target (ext more final finalPos s) = .error f) ∨
    ∃ s', returnToDepth dbg target s = .ok (.ok (), s') ∧ returnToDepth dbg target (ext more final finalPos s) = .ok (.ok (), ext more final finalPos s') ∧
      Good m p T s' ∧ s'.stack.length = s'.depth ∧ s'.inner.items.length ≤ s.inner.items.length ∧ s'.depth ≤ target ∧ (target ≤ s.depth → s'.depth = target) := by
  unfold returnToDepth
  change _ ∨ (∃ f, _ ∧ (if (dbg && s.depth < target) = true then _ else _) = _) ∨ (∃ s', _ ∧ (if (dbg && s.depth < target) = true then _ else _) = _ ∧ _)
  by_cases hc : (dbg && decide (s.depth < target)) = true
  · rw [if_pos hc, if_pos hc]
    exact .inr (.inl ⟨_, rfl, rfl⟩)
  · rw [if_neg hc, if_neg hc]
    exact skipLoop_cut dbg target _ _ s hg hl (Nat.lt_succ_self _) (Nat.lt_succ_self _)

theorem readString_cut (dbg : Bool) (er : ElemReader) (fc : Nat) : ∀ (fw : Nat) (out : String) (s : RState), Good m p T s → s.stack.length = s.depth →
    s.inner.items.length < fc → (s.inner.items ++ more).length < fw →
    (∃ s', readString dbg er fc out s = .ok (.error (.propagate ⟨.xml m, T, p⟩), s')) ∨
    (∃ f, readString dbg er fc out s = .error f ∧ readString dbg er fw out (ext more final finalPos s) = .error f) ∨
    ∃ r s', readString dbg er fc out s = .ok (r, s') ∧ readString dbg er fw out (ext more final finalPos s) = .ok (r, ext more final finalPos s') ∧
      (∀ x, r = .ok x → Good m p T s' ∧ s'.inner.items.length ≤ s.inner.items.length ∧ s'.depth + 1 = s.depth) := by
  induction fc with
  | zero => intro fw out s _ _ h; exact absurd h (Nat.not_lt_zero _)
  | succ fc ih =>
    intro fw out s hg hl h1 h2
    cases fw with
    | zero => exact absurd h2 (Nat.not_lt_zero _)
    | succ fw =>
      rw [readString, readString]
      change _ ∨ (∃ f, _ ∧ (if (dbg && er.stackPos + 1 != s.stack.length) = true then _ else _) = _) ∨
        (∃ r s', _ ∧ (if (dbg && er.stackPos + 1 != s.stack.length) = true then _ else _) = _ ∧ _)
      by_cases hc : (dbg && er.stackPos + 1 != s.stack.length) = true
      · rw [if_pos hc, if_pos hc]
        exact .inr (.inl ⟨_, rfl, rfl⟩)
      · rw [if_neg hc, if_neg hc]
        rcases next_cut (more := more) (final := final) (finalPos := finalPos) dbg s hg hl with ⟨s', h⟩ | ⟨f, h, h'⟩ | ⟨e, q, s', h, h', hg', hlt, hm⟩
        · rw [h]; exact .inl ⟨s', rfl⟩
        · rw [h, h']; exact .inr (.inl ⟨f, rfl, rfl⟩)
        · rw [h, h']
          cases e with
          | start a b =>
            cases hlast : s'.stack.getLast? with
            | none =>
              have hx : (ext more final finalPos s').stack.getLast? = none := hlast
              exact .inr (.inl ⟨.panic, by simp only [hlast], by simp only [hx]⟩)
            | some child =>
              have hx : (ext more final finalPos s').stack.getLast? = some child := hlast
              exact .inr (.inr ⟨.error (.propagate { kind := .msg (.elementInString child.name), stack := s'.stack, pos := q }), s', by simp only [hlast], by simp only [hx]; rfl,
                fun x hx => by cases hx⟩)
          | end_ a => exact .inr (.inr ⟨.ok out, s', rfl, rfl, fun _ _ => ⟨hg', Nat.le_of_lt hlt, hm⟩⟩)
          | chars str =>
            have hl2 : (s'.inner.items ++ more).length < fw := by
              rw [List.length_append] at h2 ⊢
              omega
            obtain ⟨hm1, hm2⟩ := hm
            rcases ih fw (if out.isEmpty then str else out ++ str) s' hg' hm2 (by omega) hl2 with ⟨s'', h⟩ | ⟨f, h, h'⟩ | ⟨r, s'', h, h', h3⟩
            · exact .inl ⟨s'', h⟩
            · exact .inr (.inl ⟨f, h, h'⟩)
            · refine .inr (.inr ⟨r, s'', h, h', fun x hx => ?_⟩)
              obtain ⟨h4, h5, h6⟩ := h3 x hx
              exact ⟨h4, by omega, by omega⟩

/-- What `read_to` does with a child: `visitor.element(child)`, as it stands in `readLoop`. -/
def childRun {σ : Type} (dbg : Bool) (V : Visitor σ) (fuel : Nat) (child : ElemReader) (elem : StackElem) (v : σ) (s : RState) :
    Except Fault ((Except Fault (σ × Except VErr Unit)) × RState) :=
  match V.onElem v { name := elem.name, ns := child.ns, depth := child.stackPos + 1 } with
  | .done r => .ok (r, s)
  | .readString k =>
    match readString dbg child fuel "" s with
    | .error f => .error f
    | .ok (r, s) => .ok (k r, s)
  | .readTo sub k =>
    match visitAttrs V s.stack elem.pos child.attrs sub with
    | .error f => .error f
    | .ok (sub, .error e) => .ok (k sub (.error e), s)
    | .ok (sub, .ok ()) =>
      match readLoop dbg V fuel child sub s with
      | .error f => .error f
      | .ok (sub, r, s) => .ok (k sub r, s)

theorem readLoop_start {σ : Type} (dbg : Bool) (V : Visitor σ) (fuel : Nat) (er : ElemReader) (v : σ) (s s' : RState)
    (hc : ¬ (dbg && er.stackPos + 1 != s.stack.length) = true) (attrs : List XAttr) (ns : NsMap) (pos : Pos)
    (hn : next dbg s = .ok (.ok (.start attrs ns, pos), s')) (elem : StackElem) (he : s'.stack[er.stackPos + 1]? = some elem) :
    readLoop dbg V (fuel + 1) er v s =
      match childRun dbg V fuel { ns, attrs, stackPos := er.stackPos + 1 } elem v s' with
      | .error f => .error f
      | .ok (.error f, _) => .error f
      | .ok (.ok (v, .error e), s) => .ok (v, .error (.propagate (e.toError s.stack pos)), s)
      | .ok (.ok (v, .ok ()), s) =>
        match returnToDepth dbg (er.stackPos + 1) s with
        | .error f => .error f
        | .ok (.error e, s) => .ok (v, .error (.propagate e), s)
        | .ok (.ok (), s) => readLoop dbg V fuel er v s := by
  rw [readLoop, if_neg hc]
  simp only [hn, he]
  rfl

theorem readLoop_cut {σ : Type} (dbg : Bool) (V : Visitor σ) (P : PassesOn V) (fc : Nat) : ∀ (fw : Nat) (er : ElemReader) (v : σ) (s : RState),
    Good m p T s → s.stack.length = s.depth → s.depth = er.stackPos + 1 → s.inner.items.length < fc → (s.inner.items ++ more).length < fw →
    (∃ v' s', readLoop dbg V fc er v s = .ok (v', .error (.propagate ⟨.xml m, T, p⟩), s')) ∨
    (∃ f, readLoop dbg V fc er v s = .error f ∧ readLoop dbg V fw er v (ext more final finalPos s) = .error f) ∨
    ∃ v' r s', readLoop dbg V fc er v s = .ok (v', r, s') ∧ readLoop dbg V fw er v (ext more final finalPos s) = .ok (v', r, ext more final finalPos s') ∧
      (∀ x, r = .ok x → Good m p T s' ∧ s'.inner.items.length ≤ s.inner.items.length ∧ s'.depth = er.stackPos) := by
  induction fc with
  | zero => intro fw er v s _ _ _ h; exact absurd h (Nat.not_lt_zero _)
  | succ fc ih =>
    intro fw er v s hg hl hd h1 h2
    cases fw with
    | zero => exact absurd h2 (Nat.not_lt_zero _)
    | succ fw =>
      by_cases hc : (dbg && er.stackPos + 1 != s.stack.length) = true
      · have hc' : (dbg && er.stackPos + 1 != (ext more final finalPos s).stack.length) = true := hc
        rw [readLoop, readLoop, if_pos hc, if_pos hc']
        exact .inr (.inl ⟨_, rfl, rfl⟩)
      · have hc' : ¬ (dbg && er.stackPos + 1 != (ext more final finalPos s).stack.length) = true := hc
        rcases next_cut (more := more) (final := final) (finalPos := finalPos) dbg s hg hl with ⟨s', h⟩ | ⟨f, h, h'⟩ | ⟨e, q, s', h, h', hg', hlt, hm⟩
        · rw [readLoop, if_neg hc, h]; exact .inl ⟨v, s', rfl⟩
        · rw [readLoop, readLoop, if_neg hc, if_neg hc', h, h']; exact .inr (.inl ⟨f, rfl, rfl⟩)
        · have hl2 : (s'.inner.items ++ more).length < fw := by
            rw [List.length_append] at h2 ⊢
            omega
          cases e with
          | end_ a =>
            rw [readLoop, readLoop, if_neg hc, if_neg hc', h, h']
            exact .inr (.inr ⟨v, _, s', rfl, rfl, fun _ _ => ⟨hg', Nat.le_of_lt hlt, by change s'.depth + 1 = s.depth at hm; omega⟩⟩)
          | chars str =>
            rw [readLoop, readLoop, if_neg hc, if_neg hc', h, h']
            simp only
            cases V.onChars v str q with
            | error f => exact .inr (.inl ⟨f, rfl, rfl⟩)
            | ok x =>
              obtain ⟨v', r⟩ := x
              cases r with
              | error e => exact .inr (.inr ⟨v', _, s', rfl, rfl, fun _ hx => by cases hx⟩)
              | ok u =>
                obtain ⟨hm1, hm2⟩ := hm
                rcases ih fw er v' s' hg' hm2 (by omega) (by omega) hl2 with ⟨v'', s'', h⟩ | ⟨f, h, h'⟩ | ⟨v'', r, s'', h, h', h3⟩
                · exact .inl ⟨v'', s'', h⟩
                · exact .inr (.inl ⟨f, h, h'⟩)
                · refine .inr (.inr ⟨v'', r, s'', h, h', fun x hx => ?_⟩)
                  obtain ⟨h4, h5, h6⟩ := h3 x hx
                  exact ⟨h4, by omega, h6⟩
          | start attrs ns =>
            obtain ⟨hm1, hm2⟩ := hm
            have hlen : er.stackPos + 1 < s'.stack.length := by omega
            obtain ⟨elem, he⟩ : ∃ elem, s'.stack[er.stackPos + 1]? = some elem := ⟨_, List.getElem?_eq_getElem hlen⟩
            have he' : (ext more final finalPos s').stack[er.stackPos + 1]? = some elem := he
            rw [readLoop_start dbg V fc er v s s' hc attrs ns q h elem he, readLoop_start dbg V fw er v _ _ hc' attrs ns q h' elem he']
            have key : (∃ v' s'', childRun dbg V fc { ns, attrs, stackPos := er.stackPos + 1 } elem v s' = .ok (.ok (v', .error (.propagate ⟨.xml m, T, p⟩)), s'')) ∨
                (∃ f, childRun dbg V fc { ns, attrs, stackPos := er.stackPos + 1 } elem v s' = .error f ∧
                  childRun dbg V fw { ns, attrs, stackPos := er.stackPos + 1 } elem v (ext more final finalPos s') = .error f) ∨
                ∃ y s'', childRun dbg V fc { ns, attrs, stackPos := er.stackPos + 1 } elem v s' = .ok (y, s'') ∧
                  childRun dbg V fw { ns, attrs, stackPos := er.stackPos + 1 } elem v (ext more final finalPos s') = .ok (y, ext more final finalPos s'') ∧
                  ∀ x, y = .ok (x, .ok ()) → Good m p T s'' ∧ s''.inner.items.length ≤ s'.inner.items.length ∧
                    (s''.depth > er.stackPos + 1 → s''.stack.length = s''.depth) ∧ er.stackPos + 1 ≤ s''.depth := by
              unfold childRun
              have hp := P v { name := elem.name, ns := ns, depth := er.stackPos + 1 + 1 }
              cases hact : V.onElem v { name := elem.name, ns := ns, depth := er.stackPos + 1 + 1 } with
              | done r => exact .inr (.inr ⟨r, s', rfl, rfl, fun _ _ => ⟨hg', Nat.le_refl _, fun _ => hm2, by omega⟩⟩)
              | readString k =>
                rw [hact] at hp
                simp only
                rcases readString_cut (more := more) (final := final) (finalPos := finalPos) dbg { ns, attrs, stackPos := er.stackPos + 1 } fc fw "" s' hg' hm2
                  (by omega) hl2 with ⟨s'', h⟩ | ⟨f, h, h'⟩ | ⟨r, s'', h, h', h3⟩
                · obtain ⟨v', hv⟩ := hp (.propagate ⟨.xml m, T, p⟩)
                  rw [h]
                  exact .inl ⟨v', s'', by simp only [hv]⟩
                · rw [h, h']; exact .inr (.inl ⟨f, rfl, rfl⟩)
                · rw [h, h']
                  refine .inr (.inr ⟨k r, s'', rfl, rfl, fun x hx => ?_⟩)
                  cases r with
                  | error e => obtain ⟨v', hv⟩ := hp e; rw [hv] at hx; cases hx
                  | ok str =>
                    obtain ⟨h4, h5, h6⟩ := h3 str rfl
                    exact ⟨h4, h5, fun h => by omega, by omega⟩
              | readTo sub k =>
                rw [hact] at hp
                simp only
                simp only [ext_stack]
                cases visitAttrs V s'.stack elem.pos attrs sub with
                | error f => exact .inr (.inl ⟨f, rfl, rfl⟩)
                | ok x =>
                  obtain ⟨sub', r⟩ := x
                  cases r with
                  | error e =>
                    obtain ⟨v', hv⟩ := hp sub' e
                    exact .inr (.inr ⟨k sub' (.error e), s', rfl, rfl, fun x hx => by rw [hv] at hx; cases hx⟩)
                  | ok u =>
                    simp only
                    rcases ih fw { ns, attrs, stackPos := er.stackPos + 1 } sub' s' hg' hm2 (by change s'.depth = er.stackPos + 1 + 1; omega) (by omega) hl2 with
                      ⟨v'', s'', h⟩ | ⟨f, h, h'⟩ | ⟨v'', r, s'', h, h', h3⟩
                    · obtain ⟨v', hv⟩ := hp v'' (.propagate ⟨.xml m, T, p⟩)
                      rw [h]
                      exact .inl ⟨v', s'', by simp only [hv]⟩
                    · rw [h, h']; exact .inr (.inl ⟨f, rfl, rfl⟩)
                    · rw [h, h']
                      refine .inr (.inr ⟨k v'' r, s'', rfl, rfl, fun x hx => ?_⟩)
                      cases r with
                      | error e => obtain ⟨v', hv⟩ := hp v'' e; rw [hv] at hx; cases hx
                      | ok y =>
                        obtain ⟨h4, h5, h6⟩ := h3 y rfl
                        change s''.depth = er.stackPos + 1 at h6
                        exact ⟨h4, h5, fun h => by omega, by omega⟩
            rcases key with ⟨v', s'', hk⟩ | ⟨f, hk, hk'⟩ | ⟨y, s'', hk, hk', hy⟩
            · rw [hk]; exact .inl ⟨v', s'', rfl⟩
            · rw [hk, hk']; exact .inr (.inl ⟨f, rfl, rfl⟩)
            · rw [hk, hk']
              cases y with
              | error f => exact .inr (.inl ⟨f, rfl, rfl⟩)
              | ok x =>
                obtain ⟨v', r⟩ := x
                cases r with
                | error e => exact .inr (.inr ⟨v', _, s'', rfl, rfl, fun _ hx => by cases hx⟩)
                | ok u =>
                  obtain ⟨h4, h5, h6, h7⟩ := hy v' rfl
                  simp only
                  rcases returnToDepth_cut (more := more) (final := final) (finalPos := finalPos) dbg (er.stackPos + 1) s'' h4 h6 with
                    ⟨s3, hr⟩ | ⟨f, hr, hr'⟩ | ⟨s3, hr, hr', h8, h9, h10, h11, h12⟩
                  · rw [hr]; exact .inl ⟨v', s3, rfl⟩
                  · rw [hr, hr']; exact .inr (.inl ⟨f, rfl, rfl⟩)
                  · rw [hr, hr']
                    simp only
                    have hl3 : (s3.inner.items ++ more).length < fw := by
                      rw [List.length_append] at hl2 ⊢
                      omega
                    rcases ih fw er v' s3 h8 h9 (h12 h7) (by omega) hl3 with ⟨v'', s'', h⟩ | ⟨f, h, h'⟩ | ⟨v'', r, s4, h, h', h3⟩
                    · exact .inl ⟨v'', s'', h⟩
                    · exact .inr (.inl ⟨f, h, h'⟩)
                    · refine .inr (.inr ⟨v'', r, s4, h, h', fun x hx => ?_⟩)
                      obtain ⟨h13, h14, h15⟩ := h3 x hx
                      exact ⟨h13, by omega, h15⟩

theorem endLoop_cut (fp : Pos) (items : List (XEvent × Pos)) :
    endLoop (.err m p) fp items = .error ⟨.xml m, openAfter [] items, p⟩ ∨
    ∃ e, endLoop (.err m p) fp items = .error e ∧ endLoop final finalPos (items ++ more) = .error e := by
  induction items with
  | nil => exact .inl rfl
  | cons x items ih =>
    obtain ⟨e, q⟩ := x
    cases e with
    | misc x =>
      cases x with
      | comment s => exact ih
      | pi n d => exact ih
      | whitespace s => exact .inr ⟨_, rfl, rfl⟩
    | _ => exact .inr ⟨_, rfl, rfl⟩

theorem endDoc_cut (dbg : Bool) (s : RState) (hg : Good m p T s) (hl : s.depth > 0 → s.stack.length = s.depth) :
    endDoc dbg s = .ok (.error ⟨.xml m, T, p⟩) ∨
    (endDoc dbg s = endDoc dbg (ext more final finalPos s) ∧ endDoc dbg s ≠ .ok (.ok ())) := by
  unfold endDoc
  rcases returnToDepth_cut (more := more) (final := final) (finalPos := finalPos) dbg 0 s hg hl with ⟨s', h⟩ | ⟨f, h, h'⟩ | ⟨s', h, h', hg', h1, h2, h3, h4⟩
  · rw [h]; exact .inl rfl
  · rw [h, h']; exact .inr ⟨rfl, fun h => by cases h⟩
  · rw [h, h']
    have hd : s'.depth = 0 := Nat.le_zero.mp h3
    have ho := hg'.opn
    rw [hd, List.take_zero] at ho
    simp only [hg'.fin]
    rcases endLoop_cut (m := m) (p := p) (more := more) (final := final) (finalPos := finalPos) s'.inner.finalPos s'.inner.items with h | ⟨e, h, h'⟩
    · rw [h, ho]; exact .inl rfl
    · rw [h]
      refine .inr ⟨?_, fun h => by cases h⟩
      change _ = Except.ok (endLoop final finalPos (s'.inner.items ++ more))
      rw [h']

theorem runDeser_cut {σ α : Type} (dbg : Bool) (V : Visitor σ) (P : PassesOn V) (D : Deser σ α) (PD : DeserPassesOn D) (fc fw : Nat) (er : ElemReader)
    (s : RState) (hg : Good m p T s) (hl : s.stack.length = s.depth) (hd : s.depth = er.stackPos + 1) (h1 : s.inner.items.length < fc)
    (h2 : (s.inner.items ++ more).length < fw) :
    (∃ s', runDeser dbg V D fc er s = .ok (.error (.propagate ⟨.xml m, T, p⟩), s')) ∨
    (∃ f, runDeser dbg V D fc er s = .error f ∧ runDeser dbg V D fw er (ext more final finalPos s) = .error f) ∨
    ∃ r s', runDeser dbg V D fc er s = .ok (r, s') ∧ runDeser dbg V D fw er (ext more final finalPos s) = .ok (r, ext more final finalPos s') ∧
      (∀ x, r = .ok x → Good m p T s' ∧ (s'.depth > er.stackPos → s'.stack.length = s'.depth)) := by
  unfold runDeser
  simp only [ext_stack]
  cases he : s.stack[er.stackPos]? with
  | none => exact .inr (.inl ⟨_, rfl, rfl⟩)
  | some elem =>
    have hp := PD { name := elem.name, ns := er.ns, depth := er.stackPos + 1 }
    cases hact : D { name := elem.name, ns := er.ns, depth := er.stackPos + 1 } with
    | done r =>
      simp only [hact]
      cases r with
      | error f => exact .inr (.inl ⟨f, rfl, rfl⟩)
      | ok r => exact .inr (.inr ⟨r, s, rfl, rfl, fun _ _ => ⟨hg, fun _ => hl⟩⟩)
    | readString k =>
      rw [hact] at hp
      simp only [hact]
      rcases readString_cut (more := more) (final := final) (finalPos := finalPos) dbg er fc fw "" s hg hl h1 h2 with ⟨s'', h⟩ | ⟨f, h, h'⟩ | ⟨r, s'', h, h', h3⟩
      · have hv := hp (.propagate ⟨.xml m, T, p⟩)
        rw [h]
        exact .inl ⟨s'', by simp only [hv]⟩
      · rw [h, h']; exact .inr (.inl ⟨f, rfl, rfl⟩)
      · rw [h, h']
        simp only
        cases hk : k r with
        | error f => exact .inr (.inl ⟨f, rfl, rfl⟩)
        | ok y =>
          refine .inr (.inr ⟨y, s'', rfl, rfl, fun x hx => ?_⟩)
          cases r with
          | error e => have hv := hp e; rw [hv] at hk; cases hk; cases hx
          | ok str =>
            obtain ⟨h4, h5, h6⟩ := h3 str rfl
            exact ⟨h4, fun h => by omega⟩
    | readTo sub k =>
      rw [hact] at hp
      simp only [hact]
      unfold readTo
      simp only [ext_stack, he]
      cases visitAttrs V s.stack elem.pos er.attrs sub with
      | error f => exact .inr (.inl ⟨f, rfl, rfl⟩)
      | ok x =>
        obtain ⟨sub', r⟩ := x
        cases r with
        | error e =>
          have hv := hp sub' e
          refine .inr (.inr ⟨.error e, s, ?_, ?_, fun x hx => by cases hx⟩)
          · simp only [hv]
          · simp only [hv]
        | ok u =>
          simp only
          rcases readLoop_cut (more := more) (final := final) (finalPos := finalPos) dbg V P fc fw er sub' s hg hl hd h1 h2 with
            ⟨v'', s'', h⟩ | ⟨f, h, h'⟩ | ⟨v'', r, s'', h, h', h3⟩
          · have hv := hp v'' (.propagate ⟨.xml m, T, p⟩)
            rw [h]
            exact .inl ⟨s'', by simp only [hv]⟩
          · rw [h, h']; exact .inr (.inl ⟨f, rfl, rfl⟩)
          · rw [h, h']
            simp only
            cases hk : k v'' r with
            | error f => exact .inr (.inl ⟨f, rfl, rfl⟩)
            | ok y =>
              refine .inr (.inr ⟨y, s'', rfl, rfl, fun x hx => ?_⟩)
              cases r with
              | error e => have hv := hp v'' e; rw [hv] at hk; cases hk; cases hx
              | ok z =>
                obtain ⟨h4, h5, h6⟩ := h3 z rfl
                exact ⟨h4, fun h => by omega⟩

theorem read_cut {σ α : Type} (dbg : Bool) (V : Visitor σ) (P : PassesOn V) (D : Deser σ α) (PD : DeserPassesOn D) (pre more : List (XEvent × Pos))
    (final : Final) (finalPos : Pos) (m : XmlErr) (p fp : Pos) :
    read dbg V D (cutAt pre m p fp) = .ok (.error (tooEarly pre m p)) ∨
    (read dbg V D (cutAt pre m p fp) = read dbg V D { items := pre ++ more, final, finalPos } ∧ ∀ a, read dbg V D (cutAt pre m p fp) ≠ .ok (.ok a)) := by
  unfold read root
  cases pre with
  | nil => exact .inl rfl
  | cons x pre =>
    obtain ⟨e, q⟩ := x
    cases e with
    | startDocument =>
      simp only [cutAt, Input.start, List.cons_append]
      have hg : Good m p (openAfter [] pre) { inner := { pos := q, items := pre, final := .err m p, finalPos := fp }, depth := 0, stack := [] } :=
        ⟨rfl, Nat.zero_le _, rfl⟩
      rcases next_cut (more := more) (final := final) (finalPos := finalPos) dbg _ hg rfl with ⟨s', h⟩ | ⟨f, h, h'⟩ | ⟨e, q, s', h, h', hg', hlt, hm⟩
      · rw [h]; exact .inl rfl
      · simp only [ext] at h'
        rw [h, h']; exact .inr ⟨rfl, fun a h => by cases h⟩
      · simp only [ext] at h'
        rw [h, h']
        cases e with
        | end_ a => exact .inr ⟨rfl, fun a h => by cases h⟩
        | chars a => exact .inr ⟨rfl, fun a h => by cases h⟩
        | start attrs ns =>
          obtain ⟨hm1, hm2⟩ := hm
          simp only
          rcases runDeser_cut (more := more) (final := final) (finalPos := finalPos) dbg V P D PD (s'.inner.items.length + 1) ((s'.inner.items ++ more).length + 1)
            { ns, attrs, stackPos := 0 } s' hg' hm2 hm1 (Nat.lt_succ_self _) (Nat.lt_succ_self _) with ⟨s'', h⟩ | ⟨f, h, h'⟩ | ⟨r, s'', h, h', h3⟩
          · rw [h]; exact .inl rfl
          · simp only [ext] at h'
            rw [h, h']; exact .inr ⟨rfl, fun a h => by cases h⟩
          · simp only [ext] at h'
            rw [h, h']
            cases r with
            | error e => exact .inr ⟨rfl, fun a h => by cases h⟩
            | ok a =>
              obtain ⟨h4, h5⟩ := h3 a rfl
              simp only
              rcases endDoc_cut (more := more) (final := final) (finalPos := finalPos) dbg s'' h4 h5 with h | ⟨h, hn⟩
              · rw [h]; exact .inl rfl
              · simp only [ext] at h
                rw [← h]
                refine .inr ⟨rfl, fun a => ?_⟩
                cases he : endDoc dbg s'' with
                | error f => simp
                | ok r =>
                  cases r with
                  | error e => simp
                  | ok u => exact absurd he hn
    | _ => exact .inr ⟨rfl, fun a h => by cases h⟩

end SX.Prefix
