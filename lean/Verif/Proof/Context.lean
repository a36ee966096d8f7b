import Verif.Spec.Context

/-
The reader's stack of elements is what is open.
-/
namespace SX.Context
open SX.Spec

abbrev Ev := XEvent × Pos

theorem openedBy_append (c : List Ev) (x : Ev) : openedBy (c ++ [x]) = opened (openedBy c) x := by simp [openedBy]

/-- Where the reader is: `cc` has been fetched. -/
structure At (i : Input) (cc : List Ev) (s : RState) : Prop where
  items : i.items = cc ++ s.inner.items
  final : s.inner.final = i.final
  finalPos : s.inner.finalPos = i.finalPos
  pos : (∃ c e, cc = c ++ [(e, s.inner.pos)]) ∨ s.inner.items = [] ∧ s.inner.pos = i.finalPos ∧ s.stack = openedBy cc
  depth : s.depth = (openedBy cc).length
  take : s.stack.take s.depth = openedBy cc
  stack : s.stack = openedBy cc ∨ ∃ c n p, cc = c ++ [(.endElement n, p)] ∧ s.stack = openedBy c

/-- And the stack has been cut. -/
structure Good (i : Input) (cc : List Ev) (s : RState) : Prop where
  items : i.items = cc ++ s.inner.items
  final : s.inner.final = i.final
  finalPos : s.inner.finalPos = i.finalPos
  pos : (∃ c e, cc = c ++ [(e, s.inner.pos)]) ∨ s.inner.items = [] ∧ s.inner.pos = i.finalPos
  depth : s.depth = (openedBy cc).length
  stack : s.stack = openedBy cc

theorem Good.at {i : Input} {cc : List Ev} {s : RState} (h : Good i cc s) : At i cc s where
  items := h.items
  final := h.final
  finalPos := h.finalPos
  pos := h.pos.imp id fun x => ⟨x.1, x.2, h.stack⟩
  depth := h.depth
  take := by rw [h.stack, h.depth]; exact List.take_length
  stack := .inl h.stack

/-- Cutting the stack. -/
theorem At.cut {i : Input} {cc : List Ev} {s : RState} (h : At i cc s) : Good i cc { s with stack := s.stack.take s.depth } where
  items := h.items
  final := h.final
  finalPos := h.finalPos
  pos := h.pos.imp id fun x => ⟨x.1, x.2.1⟩
  depth := h.depth
  stack := h.take

theorem At.good {i : Input} {cc : List Ev} {s : RState} (h : At i cc s) (hl : s.stack.length = s.depth) : Good i cc s := by
  have := h.cut
  rw [← hl, List.take_length] at this
  exact { items := this.items, final := this.final, finalPos := this.finalPos, pos := this.pos, depth := h.depth, stack := this.stack }

/-- An error raised here, with the position of an event fetched. -/
theorem At.raised {i : Input} {cc : List Ev} {s : RState} (h : At i cc s) {e : DErr} {p : Pos}
    (hp : (∃ x, (x, p) ∈ cc) ∨ s.inner.items = [] ∧ p = i.finalPos ∧ s.stack = openedBy cc) :
    Occurred i { kind := .deserializer e, stack := s.stack, pos := p } := by
  rcases h.stack with hs | ⟨c, n, q, rfl, hs⟩
  · rw [hs]
    refine .raised (rest := s.inner.items) h.items ?_
    rcases hp with ⟨x, hx⟩ | ⟨h1, h2, -⟩
    · left
      rw [h.items, List.mem_map]
      refine ⟨(x, p), ?_, rfl⟩
      rw [List.take_append, List.take_of_length_le (by omega)]
      exact List.mem_append_left _ hx
    · exact .inr ⟨h1, h2⟩
  · rcases hp with ⟨x, hx⟩ | ⟨h1, h2, h3⟩
    · rw [hs]
      refine .raised (rest := (.endElement n, q) :: s.inner.items) (by rw [h.items]; simp) (.inl ?_)
      rw [h.items, List.mem_map]
      refine ⟨(x, p), ?_, rfl⟩
      rw [List.take_append_of_le_length (by simp), List.take_of_length_le (by simp)]
      exact hx
    · rw [h3]
      exact .raised (rest := s.inner.items) h.items (.inr ⟨h1, h2⟩)

/-- What `next` returns. -/
inductive Next (i : Input) (cc : List Ev) (s : RState) : Except Error (Event × Pos) → RState → Prop where
  | err {E : Error} {c : List Ev} {s' : RState} (hp : cc <+: c) (h : Good i c s') (hi : s'.inner.items = []) (hd : s'.depth = s.depth) (he : Occurred i E) : Next i cc s (.error E) s'
  | start {as ns n pos c} {s' : RState} (hp : cc <+: c) (h : Good i (c ++ [(.startElement n as ns, pos)]) s') (hc : openedBy c = s.stack) (hd : s'.depth = s.depth + 1) :
      Next i cc s (.ok (.start as ns, pos)) s'
  | stop {n pos c} {s' : RState} (hp : cc <+: c) (h : At i (c ++ [(.endElement n, pos)]) s') (hd : s.depth = s'.depth + 1) : Next i cc s (.ok (.end_ n, pos)) s'
  | chars {t x pos c} {s' : RState} (hp : cc <+: c) (h : Good i (c ++ [(x, pos)]) s') (hd : s'.depth = s.depth) (hc : openedBy c = s.stack) : Next i cc s (.ok (.chars t, pos)) s'

theorem nextLoop_next (dbg : Bool) {i : Input} {s0 : RState} {c0 : List Ev} : ∀ (l : List Ev) (cc : List Ev), c0 <+: cc → i.items = cc ++ l → openedBy cc = s0.stack →
    s0.depth = s0.stack.length → ∀ {r s'}, nextLoop dbg i.final i.finalPos s0.depth s0.stack l = .ok (r, s') → Next i c0 s0 r s' := by
  intro l
  induction l with
  | nil =>
    intro cc hp hi ho hd r s' h
    simp only [List.append_nil] at hi
    unfold nextLoop at h
    split at h
    · cases h
    · rename_i m p hf
      cases h
      refine .err (c := cc) hp ⟨by simpa using hi, by simp [hf], rfl, .inr ⟨rfl, rfl⟩, by simp [ho, hd], ho.symm⟩ rfl rfl ?_
      rw [← ho, ← hi]
      exact .parser hf
  | cons e l ih =>
    obtain ⟨e, pos⟩ := e
    intro cc hp hi ho hd r s' h
    have hi' : i.items = (cc ++ [(e, pos)]) ++ l := by simp [hi]
    unfold nextLoop at h
    cases e with
    | startElement name attrs ns =>
      cases h
      refine .start (c := cc) hp ⟨hi', rfl, rfl, .inl ⟨_, _, rfl⟩, ?_, ?_⟩ ho rfl
      · simp [openedBy_append, opened, ho, hd]
      · simp [openedBy_append, opened, ho]
    | endElement name =>
      simp only at h
      split at h
      · cases h
      · rename_i d hdep
        split at h
        · cases h
        · cases h
          have hl : s0.stack.length = d + 1 := by omega
          refine .stop (c := cc) hp ⟨hi', rfl, rfl, .inl ⟨_, _, rfl⟩, ?_, ?_, .inr ⟨_, _, _, rfl, ho.symm⟩⟩ hdep
          · simp [openedBy_append, opened, ho, hl]
          · simp [openedBy_append, opened, ho, List.dropLast_eq_take, hl]
    | characters t =>
      cases h
      refine .chars (c := cc) hp ⟨hi', rfl, rfl, .inl ⟨_, _, rfl⟩, ?_, ?_⟩ rfl ho
      · simp [openedBy_append, opened, ho, hd]
      · simp [openedBy_append, opened, ho]
    | cdata t =>
      cases h
      refine .chars (c := cc) hp ⟨hi', rfl, rfl, .inl ⟨_, _, rfl⟩, ?_, ?_⟩ rfl ho
      · simp [openedBy_append, opened, ho, hd]
      · simp [openedBy_append, opened, ho]
    | misc m => exact ih _ (hp.trans (List.prefix_append ..)) hi' (by simp [openedBy_append, opened, ho]) hd h
    | startDocument => exact ih _ (hp.trans (List.prefix_append ..)) hi' (by simp [openedBy_append, opened, ho]) hd h

theorem next_next (dbg : Bool) {i : Input} {cc : List Ev} {s : RState} (hs : At i cc s) (hg : dbg = true ∨ Good i cc s) {r s'}
    (h : next dbg s = .ok (r, s')) : Next i cc s r s' := by
  unfold next at h
  split at h
  · cases h
  · rename_i hn
    have hgood : Good i cc s := by
      rcases hg with rfl | hg
      · exact hs.good (by simpa using hn)
      · exact hg
    rw [hgood.final, hgood.finalPos] at h
    exact nextLoop_next dbg _ cc (List.prefix_refl _) hgood.items hgood.stack.symm (by rw [hgood.stack, hgood.depth]) h

/-- What skipping what is left of a child comes to. -/
def Skipped (i : Input) (cc : List Ev) (target : Nat) (r : Except Error Unit) (s' : RState) : Prop :=
  (∃ E cc', r = .error E ∧ Occurred i E ∧ cc <+: cc' ∧ At i cc' s') ∨ r = .ok () ∧ (∃ cc', cc <+: cc' ∧ Good i cc' s') ∧ s'.depth = target

theorem Skipped.grow {i : Input} {cc cc1 : List Ev} {target : Nat} {r : Except Error Unit} {s' : RState} (hp : cc <+: cc1) (h : Skipped i cc1 target r s') :
    Skipped i cc target r s' :=
  h.imp (fun ⟨E, c, h1, h2, h3, h4⟩ => ⟨E, c, h1, h2, hp.trans h3, h4⟩) fun ⟨h1, ⟨c, h2, h3⟩, h4⟩ => ⟨h1, ⟨c, hp.trans h2, h3⟩, h4⟩

theorem skipLoop_cut (dbg : Bool) (target : Nat) {i : Input} : ∀ (fuel : Nat) {cc : List Ev} {s : RState}, At i cc s →
    (dbg = true ∨ Good i cc s ∨ s.depth ≤ target) → target ≤ s.depth → ∀ {r s'}, skipLoop dbg target fuel s = .ok (r, s') →
    Skipped i cc target r s' := by
  intro fuel
  induction fuel with
  | zero => intro cc s hs hg hd r s' h; simp [skipLoop] at h
  | succ fuel ih =>
    intro cc s hs hg hd r s' h
    unfold skipLoop at h
    split at h
    · rename_i hgt
      split at h
      · cases h
      · rename_i e s1 hn
        cases h
        cases next_next dbg hs (hg.imp id (fun x => x.resolve_right (by omega))) hn with
        | err hp h1 _ _ h2 => exact .inl ⟨_, _, rfl, h2, hp, h1.at⟩
      · rename_i x s1 hn
        cases next_next dbg hs (hg.imp id (fun x => x.resolve_right (by omega))) hn with
        | start hp h1 _ h2 => exact .grow (hp.trans (List.prefix_append ..)) <| ih h1.at.cut.at (.inr (.inl h1.at.cut)) (by simp only; omega) h
        | stop hp h1 h2 => exact .grow (hp.trans (List.prefix_append ..)) <| ih h1.cut.at (.inr (.inl h1.cut)) (by simp only; omega) h
        | chars hp h1 h2 => exact .grow (hp.trans (List.prefix_append ..)) <| ih h1.at.cut.at (.inr (.inl h1.at.cut)) (by simp only; omega) h
    · cases h
      exact .inr ⟨rfl, ⟨_, List.prefix_refl _, hs.cut⟩, by simp only; omega⟩

theorem returnToDepth_cut (dbg : Bool) (target : Nat) {i : Input} {cc : List Ev} {s : RState} (hs : At i cc s)
    (hg : dbg = true ∨ (Good i cc s ∨ s.depth ≤ target) ∧ target ≤ s.depth) {r s'} (h : returnToDepth dbg target s = .ok (r, s')) :
    Skipped i cc target r s' := by
  unfold returnToDepth at h
  split at h
  · cases h
  · rename_i hn
    refine skipLoop_cut dbg target _ hs (hg.imp id And.left) ?_ h
    rcases hg with rfl | hg
    · simpa using hn
    · exact hg.2

theorem readString_context (dbg : Bool) {i : Input} (er : ElemReader) : ∀ (fuel : Nat) (out : String) {cc : List Ev} {s : RState}, Good i cc s →
    s.depth = er.stackPos + 1 → ∀ {r s'}, readString dbg er fuel out s = .ok (r, s') →
    (∃ cc', cc <+: cc' ∧ At i cc' s') ∧ Got (Occurred i) r ∧ ∀ t, r = .ok t → s'.depth = er.stackPos := by
  intro fuel
  induction fuel with
  | zero => intro out cc s hs hd r s' h; simp [readString] at h
  | succ fuel ih =>
    intro out cc s hs hd r s' h
    unfold readString at h
    split at h
    · cases h
    · split at h
      · cases h
      · rename_i e s1 hn
        cases h
        cases next_next dbg hs.at (.inr hs) hn with
        | err hp h1 _ _ h2 => exact ⟨⟨_, hp, h1.at⟩, fun e he => by cases he; exact ⟨_, rfl, h2⟩, fun t ht => by cases ht⟩
      · rename_i as ns pos s1 hn
        cases next_next dbg hs.at (.inr hs) hn with
        | start hp h1 hc h2 =>
          rename_i n c
          have hst : s1.stack = openedBy c ++ [{ name := n, pos }] := by rw [h1.stack, openedBy_append]; rfl
          rw [hst] at h
          simp only [List.getLast?_append, List.getLast?_singleton, Option.some_or] at h
          cases h
          refine ⟨⟨_, hp.trans (List.prefix_append ..), h1.at⟩, fun e he => ?_, fun t ht => by cases ht⟩
          cases he
          exact ⟨_, rfl, .inText (c := c) (as := as) (ns := ns) (rest := s'.inner.items) (by rw [h1.items]; simp)⟩
      · rename_i n pos s1 hn
        cases h
        cases next_next dbg hs.at (.inr hs) hn with
        | stop hp h1 h2 => exact ⟨⟨_, hp.trans (List.prefix_append ..), h1⟩, (fun e he => by cases he), (fun t _ => by omega)⟩
      · rename_i t pos s1 hn
        cases next_next dbg hs.at (.inr hs) hn with
        | chars hp h1 h2 =>
          obtain ⟨⟨cc', h3, h4⟩, h5⟩ := ih _ h1 (by omega) h
          exact ⟨⟨cc', (hp.trans (List.prefix_append ..)).trans h3, h4⟩, h5⟩

variable {σ : Type} {V : Visitor σ} {I : σ → Prop} {i : Input}

theorem visitAttrs_context (hb : Borrows (Occurred i) I V) {stack : List StackElem} {pos : Pos}
    (hr : ∀ e, Occurred i { kind := .deserializer e, stack, pos }) : ∀ (l : List XAttr) (v : σ), I v → ∀ {v' r},
    visitAttrs V stack pos l v = .ok (v', r) → I v' ∧ Got (Occurred i) r := by
  intro l
  induction l with
  | nil => intro v hv v' r h; cases h; exact ⟨hv, fun e he => by cases he⟩
  | cons a l ih =>
    intro v hv v' r h
    unfold visitAttrs at h
    split at h
    · cases h
    · rename_i v1 e ha
      cases h
      obtain ⟨h1, h2⟩ := hb.attr _ _ _ _ _ hv ha
      refine ⟨h1, fun x hx => ?_⟩
      cases hx
      refine ⟨_, rfl, ?_⟩
      cases e with
      | propagate E => exact h2 E rfl
      | wrap e => exact hr e
    · rename_i v1 ha
      exact ih v1 (hb.attr _ _ _ _ _ hv ha).1 h

/-- What came of handing a child over: an error with context, or the child has been read, not read at all, or (only in debug builds) in part. -/
theorem readLoop_context (dbg : Bool) (H : dbg = true ∨ NoSwallow V) (hb : Borrows (Occurred i) I V) : ∀ (fuel : Nat) {er : ElemReader} {v : σ}
    {cc : List Ev} {s : RState}, Good i cc s → s.depth = er.stackPos + 1 → I v → ∀ {v' r s'}, readLoop dbg V fuel er v s = .ok (v', r, s') →
    I v' ∧ (∃ cc', cc <+: cc' ∧ At i cc' s') ∧ Got (Occurred i) r ∧ ∀ x, r = .ok x → s'.depth = er.stackPos := by
  intro fuel
  induction fuel with
  | zero => intro er v cc s hs hd hv v' r s' h; simp [readLoop] at h
  | succ fuel ih =>
    intro er v cc s hs hd hv v' r s' h
    unfold readLoop at h
    split at h
    · cases h
    · split at h
      · cases h
      · rename_i e s1 hn
        cases h
        cases next_next dbg hs.at (.inr hs) hn with
        | err hp h1 _ _ h2 => exact ⟨hv, ⟨_, hp, h1.at⟩, (fun e he => by cases he; exact ⟨_, rfl, h2⟩), (fun t ht => by cases ht)⟩
      · rename_i n pos s1 hn
        cases h
        cases next_next dbg hs.at (.inr hs) hn with
        | stop hp h1 h2 => exact ⟨hv, ⟨_, hp.trans (List.prefix_append ..), h1⟩, (fun e he => by cases he), (fun t _ => by omega)⟩
      · rename_i t pos s1 hn
        cases next_next dbg hs.at (.inr hs) hn with
        | chars hp h1 h2 =>
          split at h
          · cases h
          · rename_i v1 e hc
            cases h
            refine ⟨hb.chars _ _ _ _ _ hv hc, ⟨_, hp.trans (List.prefix_append ..), h1.at⟩, (fun x hx => ?_), (fun t ht => by cases ht)⟩
            cases hx
            exact ⟨_, rfl, h1.at.raised (.inl ⟨_, List.mem_append_right _ (List.mem_singleton.mpr rfl)⟩)⟩
          · rename_i v1 hc
            obtain ⟨h3, ⟨cc', h4, h5⟩, h6⟩ := ih h1 (by omega) (hb.chars _ _ _ _ _ hv hc) h
            exact ⟨h3, ⟨cc', (hp.trans (List.prefix_append ..)).trans h4, h5⟩, h6⟩
      · rename_i as ns pos s1 hn
        cases next_next dbg hs.at (.inr hs) hn with
        | start hp h1 hc h2 =>
          rename_i n c
          have hst : s1.stack = s.stack ++ [{ name := n, pos }] := by rw [h1.stack, openedBy_append, ← hc]; rfl
          have hlen : s.stack.length = er.stackPos + 1 := by rw [hs.stack, ← hs.depth, hd]
          have hget : s1.stack[er.stackPos + 1]? = some { name := n, pos } := by rw [hst]; simp [← hlen]
          simp only [hget] at h
          have hb' := hb.elem v { name := n, ns, depth := er.stackPos + 1 + 1 } hv
          have hns : dbg = true ∨ Action.NoSwallow (fun r => ∀ v', r ≠ .ok (v', .ok ())) (V.onElem v { name := n, ns, depth := er.stackPos + 1 + 1 }) :=
            H.imp id fun H => H _ _
          have hmem : ∃ x, (x, pos) ∈ c ++ [(XEvent.startElement n as ns, pos)] := ⟨_, List.mem_append_right _ (List.mem_singleton.mpr rfl)⟩
          have hp1 : cc <+: c ++ [(XEvent.startElement n as ns, pos)] := hp.trans (List.prefix_append ..)
          have hraise : ∀ e, Occurred i { kind := .deserializer e, stack := s1.stack, pos } := fun e => h1.at.raised (.inl hmem)
          -- the child
          have hchild : ∀ (q : Except Fault (σ × Except VErr Unit)) (s2 : RState),
              (match V.onElem v { name := n, ns, depth := er.stackPos + 1 + 1 } with
                | .done r => (.ok (r, s1) : Except Fault ((Except Fault (σ × Except VErr Unit)) × RState))
                | .readString k =>
                  match readString dbg { ns, attrs := as, stackPos := er.stackPos + 1 } fuel "" s1 with
                  | .error f => .error f
                  | .ok (r, s) => .ok (k r, s)
                | .readTo sub k =>
                  match visitAttrs V s1.stack pos as sub with
                  | .error f => .error f
                  | .ok (sub, .error e) => .ok (k sub (.error e), s1)
                  | .ok (sub, .ok ()) =>
                    match readLoop dbg V fuel { ns, attrs := as, stackPos := er.stackPos + 1 } sub s1 with
                    | .error f => .error f
                    | .ok (sub, r, s) => .ok (k sub r, s)) = .ok (q, s2) →
              (∀ v' x, q = .ok (v', x) → I v' ∧ ∀ E, x = .error (.propagate E) → Occurred i E) ∧
              ∃ cc', c ++ [(XEvent.startElement n as ns, pos)] <+: cc' ∧ At i cc' s2 ∧ (dbg = true ∨ (∀ v', q = .ok (v', .ok ()) → (Good i cc' s2 ∨ s2.depth ≤ er.stackPos + 1) ∧ er.stackPos + 1 ≤ s2.depth)) := by
            intro q s2 hq
            generalize V.onElem v { name := n, ns, depth := er.stackPos + 1 + 1 } = act at hq hb' hns
            cases act with
            | done r =>
              cases hq
              exact ⟨hb', _, List.prefix_refl _, h1.at, .inr fun _ _ => ⟨.inl h1, by omega⟩⟩
            | readString k =>
              dsimp only at hq
              split at hq
              · cases hq
              · rename_i r s3 hr
                cases hq
                obtain ⟨⟨cc', h3', h3⟩, h4, h5⟩ := readString_context dbg _ fuel "" h1 (by simp only; omega) hr
                refine ⟨hb' r h4, cc', h3', h3, hns.imp id fun hns v' hv' => ?_⟩
                cases r with
                | error e => exact absurd hv' (hns e v')
                | ok t => exact ⟨.inr (by rw [h5 t rfl]; exact Nat.le_refl _), by rw [h5 t rfl]; exact Nat.le_refl _⟩
            | readTo sub k =>
              dsimp only at hq
              obtain ⟨hsub, hk⟩ := hb'
              split at hq
              · cases hq
              · rename_i sub1 e ha
                cases hq
                obtain ⟨h3, h4⟩ := visitAttrs_context hb hraise as sub hsub ha
                exact ⟨hk _ _ h3 (fun x hx => by cases hx; exact h4 _ rfl), _, List.prefix_refl _, h1.at, hns.imp id fun hns v' hv' => absurd hv' (hns _ e v')⟩
              · rename_i sub1 ha
                obtain ⟨h3, -⟩ := visitAttrs_context hb hraise as sub hsub ha
                split at hq
                · cases hq
                · rename_i sub2 r s3 hr
                  cases hq
                  obtain ⟨h4, ⟨cc', h5', h5⟩, h6, h7⟩ := ih (er := { ns, attrs := as, stackPos := er.stackPos + 1 }) h1 (by simp only; omega) h3 hr
                  refine ⟨hk _ _ h4 h6, cc', h5', h5, hns.imp id fun hns v' hv' => ?_⟩
                  cases r with
                  | error e => exact absurd hv' (hns _ e v')
                  | ok t => exact ⟨.inr (by rw [h7 t rfl]; exact Nat.le_refl _), by rw [h7 t rfl]; exact Nat.le_refl _⟩
          split at h
          · cases h
          · cases h
          · rename_i v1 e s2 hq
            cases h
            obtain ⟨h3, cc', h5, h4, -⟩ := hchild _ _ hq
            obtain ⟨h6, h7⟩ := h3 _ _ rfl
            refine ⟨h6, ⟨_, hp1.trans h5, h4⟩, (fun x hx => ?_), (fun t ht => by cases ht)⟩
            cases hx
            refine ⟨_, rfl, ?_⟩
            cases e with
            | propagate E => exact h7 E rfl
            | wrap e => exact h4.raised (.inl (hmem.imp fun _ h => h5.subset h))
          · rename_i v1 s2 hq
            obtain ⟨h3, cc', h5, h4, h6⟩ := hchild _ _ hq
            obtain ⟨h7, -⟩ := h3 _ _ rfl
            split at h
            · cases h
            · rename_i e s3 hret
              cases h
              rcases returnToDepth_cut dbg _ h4 (h6.imp id fun h => h _ rfl) hret with ⟨E, cc2, h8, h9, h10', h10⟩ | ⟨h8, -⟩
              · cases h8
                exact ⟨h7, ⟨_, (hp1.trans h5).trans h10', h10⟩, (fun x hx => by cases hx; exact ⟨_, rfl, h9⟩), (fun t ht => by cases ht)⟩
              · cases h8
            · rename_i s3 hret
              rcases returnToDepth_cut dbg _ h4 (h6.imp id fun h => h _ rfl) hret with ⟨E, cc2, h8, -⟩ | ⟨-, ⟨cc2, h9', h9⟩, h10⟩
              · cases h8
              · obtain ⟨h11, ⟨cc3, h12, h13⟩, h14⟩ := ih h9 h10 h7 h
                exact ⟨h11, ⟨cc3, ((hp1.trans h5).trans h9').trans h12, h13⟩, h14⟩

theorem readTo_context (dbg : Bool) (H : dbg = true ∨ NoSwallow V) (hb : Borrows (Occurred i) I V) (fuel : Nat) {er : ElemReader} {v : σ} {c : List Ev} {n : QName}
    {as : List XAttr} {ns : NsMap} {pos : Pos} {s : RState} (hs : Good i (c ++ [(.startElement n as ns, pos)]) s) (hc : openedBy c = []) (he : er.stackPos = 0) (hv : I v)
    {v' r s'} (h : readTo dbg V fuel er v s = .ok (v', r, s')) :
    I v' ∧ (∃ cc', At i cc' s') ∧ Got (Occurred i) r ∧ ∀ x, r = .ok x → s'.depth = 0 := by
  have hst : s.stack = [{ name := n, pos }] := by rw [hs.stack, openedBy_append, hc]; rfl
  have hd : s.depth = 1 := by rw [hs.depth, ← hs.stack, hst]; rfl
  unfold readTo at h
  rw [hst, he] at h
  simp only [List.getElem?_cons_zero] at h
  have hraise : ∀ e, Occurred i { kind := .deserializer e, stack := [{ name := n, pos }], pos } := by
    intro e
    have := hs.at.raised (e := e) (p := pos) (.inl ⟨_, List.mem_append_right _ (List.mem_singleton.mpr rfl)⟩)
    rwa [hst] at this
  split at h
  · cases h
  · rename_i v1 e ha
    cases h
    obtain ⟨h1, h2⟩ := visitAttrs_context hb hraise _ _ hv ha
    exact ⟨h1, ⟨_, hs.at⟩, (fun x hx => by cases hx; exact h2 _ rfl), (fun x hx => by cases hx)⟩
  · rename_i v1 ha
    obtain ⟨h1, -⟩ := visitAttrs_context hb hraise _ _ hv ha
    obtain ⟨h2, ⟨cc', -, h3⟩, h4, h5⟩ := readLoop_context dbg H hb fuel hs (by rw [hd, he]) h1 h
    exact ⟨h2, ⟨cc', h3⟩, h4, fun x hx => (h5 x hx).trans he⟩

theorem runDeser_context {α : Type} (dbg : Bool) {D : Deser σ α} (H : dbg = true ∨ NoSwallow V ∧ DeserNoSwallow D) (hb : Borrows (Occurred i) I V)
    (hD : ∀ x, Action.Borrows (Occurred i) I (fun r => ∀ E, r = .ok (.error (.propagate E)) → Occurred i E) (D x)) (fuel : Nat) {er : ElemReader} {c : List Ev} {n : QName}
    {as : List XAttr} {ns : NsMap} {pos : Pos} {s : RState} (hs : Good i (c ++ [(.startElement n as ns, pos)]) s) (hc : openedBy c = []) (he : er.stackPos = 0)
    {r s'} (h : runDeser dbg V D fuel er s = .ok (r, s')) :
    (∀ E, r = .error (.propagate E) → Occurred i E) ∧
      ∃ cc', At i cc' s' ∧ (dbg = true ∨ ∀ a, r = .ok a → Good i cc' s' ∨ s'.depth ≤ 0) := by
  have hst : s.stack = [{ name := n, pos }] := by rw [hs.stack, openedBy_append, hc]; rfl
  have hd : s.depth = 1 := by rw [hs.depth, ← hs.stack, hst]; rfl
  unfold runDeser at h
  have hget : s.stack[er.stackPos]? = some { name := n, pos } := by rw [hst, he]; rfl
  simp only [hget] at h
  have hb' := hD { name := n, ns := er.ns, depth := er.stackPos + 1 }
  have hns : dbg = true ∨ Action.NoSwallow (fun r => ∀ a, r ≠ .ok (.ok a)) (D { name := n, ns := er.ns, depth := er.stackPos + 1 }) := H.imp id fun H => H.2 _
  generalize D { name := n, ns := er.ns, depth := er.stackPos + 1 } = act at h hb' hns
  cases act with
  | done q =>
    dsimp only at h
    cases q with
    | error f => cases h
    | ok q =>
      cases h
      exact ⟨fun E hE => hb' E (by rw [hE]), _, hs.at, .inr fun _ _ => .inl hs⟩
  | readString k =>
    dsimp only at h
    cases hr : readString dbg er fuel "" s with
    | error f => rw [hr] at h; cases h
    | ok x =>
      obtain ⟨q, s2⟩ := x
      rw [hr] at h
      obtain ⟨⟨cc', -, h3⟩, h4, h5⟩ := readString_context dbg er fuel "" hs (by rw [hd, he]) hr
      have hk := hb' q h4
      cases hq : k q with
      | error f => simp [hq] at h
      | ok y =>
        simp only [hq, Except.ok.injEq, Prod.mk.injEq] at h
        obtain ⟨rfl, rfl⟩ := h
        refine ⟨fun E hE => hk E (by rw [hq, hE]), cc', h3, hns.imp id fun hns a ha => .inr ?_⟩
        cases q with
        | error e => exact absurd (by rw [hq, ha]) (hns e a)
        | ok t => rw [h5 t rfl, he]; exact Nat.le_refl _
  | readTo sub k =>
    dsimp only at h
    obtain ⟨hsub, hb'⟩ := hb'
    cases hr : readTo dbg V fuel er sub s with
    | error f => rw [hr] at h; cases h
    | ok x =>
      obtain ⟨sub', q, s2⟩ := x
      rw [hr] at h
      obtain ⟨h2, ⟨cc', h3⟩, h4, h5⟩ := readTo_context dbg (H.imp id And.left) hb fuel hs hc he hsub hr
      have hk := hb' sub' q h2 h4
      cases hq : k sub' q with
      | error f => simp [hq] at h
      | ok y =>
        simp only [hq, Except.ok.injEq, Prod.mk.injEq] at h
        obtain ⟨rfl, rfl⟩ := h
        refine ⟨fun E hE => hk E (by rw [hq, hE]), cc', h3, hns.imp id fun hns a ha => .inr ?_⟩
        cases q with
        | error e => exact absurd (by rw [hq, ha]) (hns _ e a)
        | ok t => rw [h5 t rfl]; exact Nat.le_refl _

theorem endLoop_context : ∀ (l cc : List Ev), i.items = cc ++ l → openedBy cc = [] → ∀ {E}, endLoop i.final i.finalPos l = .error E → Occurred i E := by
  intro l
  induction l with
  | nil =>
    intro cc hi ho E h
    unfold endLoop at h
    split at h
    · cases h
    · rename_i m p hf
      cases h
      have : openedBy i.items = [] := by rw [hi]; simpa using ho
      rw [← this]
      exact .parser hf
  | cons e l ih =>
    obtain ⟨e, pos⟩ := e
    intro cc hi ho E h
    have hi' : i.items = (cc ++ [(e, pos)]) ++ l := by simp [hi]
    unfold endLoop at h
    split at h
    · rename_i heq; cases heq
    · rename_i heq; cases heq; exact ih _ hi' (by simp [openedBy_append, opened, ho]) h
    · rename_i heq; cases heq; exact ih _ hi' (by simp [openedBy_append, opened, ho]) h
    · rename_i heq
      cases heq
      cases h
      exact .outside hi ho

theorem endDoc_context (dbg : Bool) {cc : List Ev} {s : RState} (hs : At i cc s) (hg : dbg = true ∨ (Good i cc s ∨ s.depth ≤ 0)) {E}
    (h : endDoc dbg s = .ok (.error E)) : Occurred i E := by
  unfold endDoc at h
  split at h
  · cases h
  · rename_i e s1 hr
    cases h
    rcases returnToDepth_cut dbg 0 hs (hg.imp id fun h => ⟨h, Nat.zero_le _⟩) hr with ⟨E', _, h1, h2, -⟩ | ⟨h1, -⟩
    · cases h1; exact h2
    · cases h1
  · rename_i s1 hr
    rcases returnToDepth_cut dbg 0 hs (hg.imp id fun h => ⟨h, Nat.zero_le _⟩) hr with ⟨E', _, h1, -⟩ | ⟨-, ⟨cc', -, h2⟩, h3⟩
    · cases h1
    · have h4 : openedBy cc' = [] := List.eq_nil_of_length_eq_zero (by rw [← h2.depth, h3])
      rw [h2.final, h2.finalPos] at h
      exact endLoop_context _ cc' h2.items h4 (Except.ok.inj h)

theorem read_context {α : Type} (dbg : Bool) {D : Deser σ α} (H : dbg = true ∨ NoSwallow V ∧ DeserNoSwallow D) (hb : Borrows (Occurred i) I V)
    (hD : ∀ x, Action.Borrows (Occurred i) I (fun r => ∀ E, r = .ok (.error (.propagate E)) → Occurred i E) (D x)) {E : Error}
    (h : read dbg V D i = .ok (.error E)) : Occurred i E := by
  unfold read at h
  split at h
  · cases h
  · rename_i e s1 hr
    cases h
    unfold root at hr
    simp only [Input.start] at hr
    split at hr
    · rename_i hi
      split at hr
      · cases hr; exact .nothing hi
      · rename_i m p hf
        cases hr
        have : openedBy i.items = [] := by rw [hi]; rfl
        rw [← this]
        exact .parser hf
    · rename_i pos rest hi
      split at hr
      · cases hr
      · rename_i e2 s2 hn
        cases hr
        have hg : Good i [(.startDocument, pos)] { inner := { pos, items := rest, final := i.final, finalPos := i.finalPos }, depth := 0, stack := [] } :=
          ⟨hi, rfl, rfl, .inl ⟨[], _, rfl⟩, rfl, rfl⟩
        cases next_next dbg hg.at (.inr hg) hn with
        | err _ _ _ _ h2 => exact h2
      · cases hr
      · rename_i ev pos2 s2 hno hn
        cases hr
        have hg : Good i [(.startDocument, pos)] { inner := { pos, items := rest, final := i.final, finalPos := i.finalPos }, depth := 0, stack := [] } :=
          ⟨hi, rfl, rfl, .inl ⟨[], _, rfl⟩, rfl, rfl⟩
        cases next_next dbg hg.at (.inr hg) hn with
        | start => exact (hno _ _ rfl).elim
        | stop _ _ h2 => simp at h2
        | chars _ h1 h2 hc => exact .outside (rest := s1.inner.items) (h1.items.trans (List.append_assoc ..)) hc
    · rename_i x pos rest hx hi
      cases hr
      exact .outside (c := []) hi rfl
  · rename_i er s1 hr
    obtain ⟨c, n, as, ns, pos, hg, hc, he⟩ : ∃ c n as ns pos, Good i (c ++ [(.startElement n as ns, pos)]) s1 ∧ openedBy c = [] ∧ er.stackPos = 0 := by
      unfold root at hr
      simp only [Input.start] at hr
      split at hr
      · split at hr <;> cases hr
      · rename_i pos rest hi
        have hg : Good i [(.startDocument, pos)] { inner := { pos, items := rest, final := i.final, finalPos := i.finalPos }, depth := 0, stack := [] } :=
          ⟨hi, rfl, rfl, .inl ⟨[], _, rfl⟩, rfl, rfl⟩
        split at hr
        · cases hr
        · cases hr
        · rename_i as ns pos2 s2 hn
          cases hr
          cases next_next dbg hg.at (.inr hg) hn with
          | start hp h1 hc h2 => exact ⟨_, _, _, _, _, h1, hc, rfl⟩
        · cases hr
      · cases hr
    split at h
    · cases h
    · rename_i e s2 hrun
      cases h
      obtain ⟨h1, cc, h2, -⟩ := runDeser_context dbg H hb hD _ hg hc he hrun
      cases e with
      | propagate E => exact h1 E rfl
      | wrap e =>
        refine h2.raised ?_
        rcases h2.pos with ⟨c, x, h3⟩ | h3
        · exact .inl ⟨x, by rw [h3]; simp⟩
        · exact .inr h3
    · rename_i a s2 hrun
      obtain ⟨-, cc, h2, h3⟩ := runDeser_context dbg H hb hD _ hg hc he hrun
      split at h
      · cases h
      · rename_i e hend
        cases h
        exact endDoc_context dbg h2 (h3.imp id fun h => h a rfl) hend
      · cases h

end SX.Context
