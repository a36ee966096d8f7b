import Verif.Spec.Tree

namespace SX
open Spec

/-- After these events, the elements of `o` (innermost first) are closed, and `t` remains. -/
inductive Leads : List QName → List (XEvent × Pos) → List (XEvent × Pos) → Prop
  | done (l) : Leads [] l l
  | start {n a ns p m o l t} : Leads (n :: m :: o) l t → Leads (m :: o) ((.startElement n a ns, p) :: l) t
  | end_ {n p o l t} : Leads o l t → Leads (n :: o) ((.endElement n, p) :: l) t
  | chars {s p m o l t} : Leads (m :: o) l t → Leads (m :: o) ((.characters s, p) :: l) t
  | cdata {s p m o l t} : Leads (m :: o) l t → Leads (m :: o) ((.cdata s, p) :: l) t
  | misc {x p m o l t} : Leads (m :: o) l t → Leads (m :: o) ((.misc x, p) :: l) t

theorem Leads.trans {o o' : List QName} {a b c : List (XEvent × Pos)} (h : Leads o a b) (h' : Leads o' b c) :
    Leads (o ++ o') a c := by
  induction h with
  | done l => exact h'
  | start _ ih => exact .start (ih h')
  | end_ _ ih => exact .end_ (ih h')
  | chars _ ih => exact .chars (ih h')
  | cdata _ ih => exact .cdata (ih h')
  | misc _ ih => exact .misc (ih h')

theorem Leads.forest (f : Forest) {m : QName} {o : List QName} {l t : List (XEvent × Pos)} (h : Leads (m :: o) l t) :
    Leads (m :: o) (f.events ++ l) t := by
  induction f generalizing m o l with
  | nil => exact h
  | elem name attrs ns pos children endPos rest ihc ihr =>
    simp only [Forest.events, List.cons_append, List.append_assoc]
    exact .start (ihc (.end_ (ihr h)))
  | chars s cd pos rest ih =>
    simp only [Forest.events, List.cons_append]
    cases cd
    · exact .chars (ih h)
    · exact .cdata (ih h)
  | misc x pos rest ih => exact .misc (ih h)

/-- Stack and depth agree with the open elements `o` above the level `target`. -/
def Synced (s : RState) (target : Nat) (o : List QName) : Prop :=
  s.stack.length = s.depth ∧ ((s.stack.drop target).map StackElem.name).reverse = o

theorem next_misc (dbg : Bool) (s : RState) (x : Misc) (p : Pos) (l : List (XEvent × Pos))
    (h : s.inner.items = (.misc x, p) :: l) :
    next dbg s = next dbg { s with inner := { s.inner with items := l } } := by
  unfold next
  simp only [h, nextLoop]

theorem getLast_map_drop (st : List StackElem) (target d : Nat) (n : QName) (o : List QName)
    (hl : st.length = d + 1) (hd : target + (o.length + 1) = d + 1)
    (h : ((st.drop target).map StackElem.name).reverse = n :: o) :
    st[d]?.map StackElem.name = some n := by
  have h2 : (st.drop target).map StackElem.name = o.reverse ++ [n] := by
    rw [← List.reverse_reverse ((st.drop target).map _), h]; simp
  have h3 : ((st.drop target).map StackElem.name)[o.length]? = some n := by
    rw [h2]; simp
  rw [List.getElem?_map, List.getElem?_drop] at h3
  have : target + o.length = d := by omega
  rw [this] at h3
  exact h3

theorem skipLoop_spec (dbg : Bool) (target : Nat) (o : List QName) (items tail : List (XEvent × Pos))
    (hL : Leads o items tail) (fuel : Nat) (s : RState) (hi : s.inner.items = items)
    (hf : items.length + 1 ≤ fuel) (hd : s.depth = target + o.length) (hs : s.depth ≤ s.stack.length)
    (hx : dbg = false ∨ Synced s target o ∨ o = []) :
    ∃ p, skipLoop dbg target fuel s = .ok (.ok (), 
      { inner := { s.inner with pos := p, items := tail }, depth := target, stack := s.stack.take target }) := by
  induction hL generalizing fuel s with
  | done l =>
    cases fuel with
    | zero => omega
    | succ fuel =>
      refine ⟨s.inner.pos, ?_⟩
      unfold skipLoop
      have : ¬ s.depth > target := by simp at hd; omega
      rw [if_neg this]
      have e : s.depth = target := by simpa using hd
      rw [e, ← hi]
  | @start n a ns p m o l t _ ih =>
    cases fuel with
    | zero => omega
    | succ fuel =>
      unfold skipLoop
      have hgt : s.depth > target := by simp at hd; omega
      rw [if_pos hgt]
      have hn : next dbg s = .ok (.ok (.start a ns, p), { inner := { s.inner with pos := p, items := l }, depth := s.depth + 1, stack := s.stack ++ [{ name := n, pos := p }] }) := by
        unfold next
        rw [if_neg, hi]
        · simp only [nextLoop]
        · rcases hx with h | h | h
          · simp [h]
          · simp [h.1]
          · simp at h
      rw [hn]
      simp only
      have hx' : dbg = false ∨ Synced { inner := { s.inner with pos := p, items := l }, depth := s.depth + 1, stack := (s.stack ++ [(⟨n, p⟩ : StackElem)]).take (s.depth + 1) } target (n :: m :: o) ∨ n :: m :: o = [] := by
        rcases hx with h | h | h
        · exact .inl h
        · right; left
          obtain ⟨h1, h2⟩ := h
          constructor
          · simp [h1]
          · simp only
            rw [List.take_of_length_le (by simp [h1]), List.drop_append_of_le_length (by omega),
              List.map_append, List.reverse_append, h2]
            rfl
        · simp at h
      have := ih fuel { inner := { s.inner with pos := p, items := l }, depth := s.depth + 1, stack := (s.stack ++ [(⟨n, p⟩ : StackElem)]).take (s.depth + 1) } rfl (by simp at hf ⊢; omega) (by simp at hd ⊢; omega) (by simp; omega) hx'
      obtain ⟨q, hq⟩ := this
      refine ⟨q, ?_⟩
      rw [hq]
      simp only [List.take_take]
      rw [Nat.min_eq_left (by omega), List.take_append_of_le_length (by omega)]
  | @end_ n p o l t _ ih =>
    cases fuel with
    | zero => omega
    | succ fuel =>
      unfold skipLoop
      have hgt : s.depth > target := by simp at hd; omega
      rw [if_pos hgt]
      obtain ⟨d, hdd⟩ : ∃ d, s.depth = d + 1 := ⟨s.depth - 1, by omega⟩
      have hn : next dbg s = .ok (.ok (.end_ n, p), { inner := { s.inner with pos := p, items := l }, depth := d, stack := s.stack }) := by
        unfold next
        rw [if_neg, hi]
        · simp only [nextLoop]
          rw [hdd]
          simp only
          rw [if_neg]
          rcases hx with h | h | h
          · simp [h]
          · have := getLast_map_drop s.stack target d n o (by rw [h.1, hdd]) (by simp at hd; omega) h.2
            simp [this]
          · simp at h
        · rcases hx with h | h | h
          · simp [h]
          · simp [h.1]
          · simp at h
      rw [hn]
      simp only
      have hx' : dbg = false ∨ Synced { inner := { s.inner with pos := p, items := l }, depth := d, stack := s.stack.take d } target o ∨ o = [] := by
        rcases hx with h | h | h
        · exact .inl h
        · right; left
          obtain ⟨h1, h2⟩ := h
          constructor
          · simp; omega
          · simp only
            have h2' : (s.stack.drop target).map StackElem.name = o.reverse ++ [n] := by
              rw [← List.reverse_reverse ((s.stack.drop target).map _), h2]; simp
            rw [List.drop_take]
            have h4 := congrArg (List.take (d - target)) h2'
            have : d - target = o.reverse.length := by simp at hd ⊢; omega
            rw [List.map_take, h4, this]
            simp
        · simp at h
      have := ih fuel { inner := { s.inner with pos := p, items := l }, depth := d, stack := s.stack.take d } rfl (by simp at hf ⊢; omega) (by simp at hd ⊢; omega) (by simp; omega) hx'
      obtain ⟨q, hq⟩ := this
      refine ⟨q, ?_⟩
      rw [hq]
      simp only [List.take_take]
      rw [Nat.min_eq_left (by simp at hd; omega)]
  | @chars str p m o l t _ ih =>
    cases fuel with
    | zero => omega
    | succ fuel =>
      unfold skipLoop
      have hgt : s.depth > target := by simp at hd; omega
      rw [if_pos hgt]
      have hn : next dbg s = .ok (.ok (.chars str, p), { inner := { s.inner with pos := p, items := l }, depth := s.depth, stack := s.stack }) := by
        unfold next
        rw [if_neg, hi]
        · simp only [nextLoop]
        · rcases hx with h | h | h
          · simp [h]
          · simp [h.1]
          · simp at h
      rw [hn]
      simp only
      have hx' : dbg = false ∨ Synced { inner := { s.inner with pos := p, items := l }, depth := s.depth, stack := s.stack.take s.depth } target (m :: o) ∨ m :: o = [] := by
        rcases hx with h | h | h
        · exact .inl h
        · right; left
          obtain ⟨h1, h2⟩ := h
          constructor
          · simp [h1]
          · simp only
            rw [List.take_of_length_le (by simp [h1])]
            exact h2
        · simp at h
      have := ih fuel { inner := { s.inner with pos := p, items := l }, depth := s.depth, stack := s.stack.take s.depth } rfl (by simp at hf ⊢; omega) (by simp at hd ⊢; omega) (by simp; omega) hx'
      obtain ⟨q, hq⟩ := this
      refine ⟨q, ?_⟩
      rw [hq]
      simp only [List.take_take]
      rw [Nat.min_eq_left (by omega)]
  | @cdata str p m o l t _ ih =>
    cases fuel with
    | zero => omega
    | succ fuel =>
      unfold skipLoop
      have hgt : s.depth > target := by simp at hd; omega
      rw [if_pos hgt]
      have hn : next dbg s = .ok (.ok (.chars str, p), { inner := { s.inner with pos := p, items := l }, depth := s.depth, stack := s.stack }) := by
        unfold next
        rw [if_neg, hi]
        · simp only [nextLoop]
        · rcases hx with h | h | h
          · simp [h]
          · simp [h.1]
          · simp at h
      rw [hn]
      simp only
      have hx' : dbg = false ∨ Synced { inner := { s.inner with pos := p, items := l }, depth := s.depth, stack := s.stack.take s.depth } target (m :: o) ∨ m :: o = [] := by
        rcases hx with h | h | h
        · exact .inl h
        · right; left
          obtain ⟨h1, h2⟩ := h
          constructor
          · simp [h1]
          · simp only
            rw [List.take_of_length_le (by simp [h1])]
            exact h2
        · simp at h
      have := ih fuel { inner := { s.inner with pos := p, items := l }, depth := s.depth, stack := s.stack.take s.depth } rfl (by simp at hf ⊢; omega) (by simp at hd ⊢; omega) (by simp; omega) hx'
      obtain ⟨q, hq⟩ := this
      refine ⟨q, ?_⟩
      rw [hq]
      simp only [List.take_take]
      rw [Nat.min_eq_left (by omega)]
  | @misc x p m o l t _ ih =>
    cases fuel with
    | zero => omega
    | succ fuel =>
      have hgt : s.depth > target := by simp at hd; omega
      have := ih (fuel + 1) { s with inner := { s.inner with items := l } } rfl (by simp at hf ⊢; omega) hd hs hx
      obtain ⟨q, hq⟩ := this
      refine ⟨q, ?_⟩
      unfold skipLoop at hq ⊢
      rw [if_pos hgt] at hq ⊢
      rw [next_misc dbg s x p l hi]
      exact hq

theorem returnToDepth_spec (dbg : Bool) (target : Nat) (o : List QName) (tail : List (XEvent × Pos))
    (s : RState) (hL : Leads o s.inner.items tail) (hd : s.depth = target + o.length)
    (hs : s.depth ≤ s.stack.length) (hx : dbg = false ∨ Synced s target o ∨ o = []) :
    ∃ p, returnToDepth dbg target s = .ok (.ok (), 
      { inner := { s.inner with pos := p, items := tail }, depth := target, stack := s.stack.take target }) := by
  unfold returnToDepth
  rw [if_neg (by simp; omega)]
  exact skipLoop_spec dbg target o _ tail hL _ s rfl (Nat.le_refl _) hd hs hx

/-- The state of the reader after a failure inside the element above `base`: what is needed to skip the
rest of that element. -/
structure Failed (s s' : RState) (base : List StackElem) (tail : List (XEvent × Pos)) : Prop where
  lead : ∃ o, Leads o s'.inner.items tail ∧ s'.depth = base.length + o.length
  le : s'.depth ≤ s'.stack.length
  take : s'.stack.take base.length = base
  final : s'.inner.final = s.inner.final
  finalPos : s'.inner.finalPos = s.inner.finalPos

/-- The reader stands right inside the element `x` above `base`. -/
structure Inside (s : RState) (base : List StackElem) (x : StackElem) : Prop where
  depth : s.depth = base.length + 1
  stack : s.stack = base ++ [x]

theorem next_inside (dbg : Bool) (s : RState) (base : List StackElem) (x : StackElem) (h : Inside s base x) :
    next dbg s = nextLoop dbg s.inner.final s.inner.finalPos (base.length + 1) (base ++ [x]) s.inner.items := by
  unfold next
  rw [if_neg (by simp [h.depth, h.stack]), h.depth, h.stack]

theorem next_end (dbg : Bool) (s : RState) (base : List StackElem) (x : StackElem) (h : Inside s base x)
    (p : Pos) (tail : List (XEvent × Pos)) (hi : s.inner.items = (.endElement x.name, p) :: tail) :
    next dbg s = .ok (.ok (.end_ x.name, p),
      { inner := { s.inner with pos := p, items := tail }, depth := base.length, stack := base ++ [x] }) := by
  rw [next_inside dbg s base x h, hi]
  simp [nextLoop]

theorem next_start (dbg : Bool) (s : RState) (base : List StackElem) (x : StackElem) (h : Inside s base x)
    (n : QName) (a : List XAttr) (ns : NsMap)
    (p : Pos) (tail : List (XEvent × Pos)) (hi : s.inner.items = (.startElement n a ns, p) :: tail) :
    next dbg s = .ok (.ok (.start a ns, p),
      { inner := { s.inner with pos := p, items := tail }, depth := base.length + 2, stack := base ++ [x] ++ [⟨n, p⟩] }) := by
  rw [next_inside dbg s base x h, hi]
  simp only [nextLoop]

theorem next_chars (dbg : Bool) (s : RState) (base : List StackElem) (x : StackElem) (h : Inside s base x)
    (str : String) (cd : Bool)
    (p : Pos) (tail : List (XEvent × Pos))
    (hi : s.inner.items = (if cd then .cdata str else .characters str, p) :: tail) :
    next dbg s = .ok (.ok (.chars str, p),
      { inner := { s.inner with pos := p, items := tail }, depth := base.length + 1, stack := base ++ [x] }) := by
  rw [next_inside dbg s base x h, hi]
  cases cd <;> simp [nextLoop]

theorem readString_misc (dbg : Bool) (er : ElemReader) (fuel : Nat) (out : String) (s : RState) (m : Misc)
    (p : Pos) (l : List (XEvent × Pos)) (h : s.inner.items = (.misc m, p) :: l) :
    readString dbg er fuel out s = readString dbg er fuel out { s with inner := { s.inner with items := l } } := by
  cases fuel with
  | zero => rfl
  | succ fuel => unfold readString; rw [next_misc dbg s m p l h]

theorem readLoop_misc {σ : Type} (dbg : Bool) (V : Visitor σ) (er : ElemReader) (fuel : Nat) (v : σ) (s : RState) (m : Misc)
    (p : Pos) (l : List (XEvent × Pos)) (h : s.inner.items = (.misc m, p) :: l) :
    readLoop dbg V fuel er v s = readLoop dbg V fuel er v { s with inner := { s.inner with items := l } } := by
  cases fuel with
  | zero => rfl
  | succ fuel => unfold readLoop; rw [next_misc dbg s m p l h]

theorem isEmpty_append (out str : String) : (if out.isEmpty then str else out ++ str) = out ++ str := by
  split
  · rename_i h
    have : out = "" := by simpa [String.isEmpty_iff] using h
    simp [this]
  · rfl

theorem readString_spec (dbg : Bool) (er : ElemReader) (base : List StackElem) (x : StackElem) (endPos : Pos)
    (tail : List (XEvent × Pos)) (he : er.stackPos = base.length) (f : Forest) (fuel : Nat) (out : String)
    (s : RState) (hin : Inside s base x)
    (hi : s.inner.items = f.events ++ (.endElement x.name, endPos) :: tail) (hf : f.events.length + 1 ≤ fuel) :
    match f.firstElem with
    | none => readString dbg er fuel out s = .ok (.ok (out ++ f.text),
        { inner := { s.inner with pos := endPos, items := tail }, depth := base.length, stack := base ++ [x] })
    | some c => ∃ s', readString dbg er fuel out s = .ok (.error (.propagate
          { kind := .msg (.elementInString c.name), stack := base ++ [x] ++ [c], pos := c.pos }), s') ∧
        s'.stack = base ++ [x] ++ [c] ∧ s'.inner.pos = c.pos ∧ Failed s s' base tail := by
  induction f generalizing fuel out s with
  | nil =>
    simp only [Forest.events, List.nil_append] at hi
    cases fuel with
    | zero => omega
    | succ fuel =>
      simp only [Forest.firstElem, Forest.text]
      unfold readString
      rw [if_neg (by simp [he, hin.stack]), next_end dbg s base x hin endPos tail hi]
      simp
  | misc m p rest ih =>
    simp only [Forest.events, List.cons_append] at hi
    rw [readString_misc dbg er fuel out s m p _ hi]
    have := ih fuel out { s with inner := { s.inner with items := rest.events ++ (.endElement x.name, endPos) :: tail } }
      ⟨hin.depth, hin.stack⟩ rfl (by simp [Forest.events] at hf; omega)
    simp only [Forest.firstElem, Forest.text]
    revert this
    split
    · exact id
    · rintro ⟨s', h1, h2, h3, h4⟩
      exact ⟨s', h1, h2, h3, ⟨h4.lead, h4.le, h4.take, h4.final, h4.finalPos⟩⟩
  | chars str cd p rest ih =>
    simp only [Forest.events, List.cons_append] at hi
    cases fuel with
    | zero => omega
    | succ fuel =>
      unfold readString
      rw [if_neg (by simp [he, hin.stack]), next_chars dbg s base x hin str cd p _ hi]
      simp only [isEmpty_append, Forest.firstElem]
      have := ih fuel (out ++ str) { inner := { s.inner with pos := p, items := rest.events ++ (.endElement x.name, endPos) :: tail }, depth := base.length + 1, stack := base ++ [x] }
        ⟨rfl, rfl⟩ rfl (by simp [Forest.events] at hf; omega)
      cases hfe : rest.firstElem with
      | none =>
        rw [hfe] at this
        simp only at this ⊢
        rw [this]
        simp [Forest.text, String.append_assoc]
      | some c =>
        rw [hfe] at this
        simp only at this ⊢
        obtain ⟨s', h1, h2, h3, h4⟩ := this
        exact ⟨s', h1, h2, h3, ⟨h4.lead, h4.le, h4.take, h4.final, h4.finalPos⟩⟩
  | elem n a ns p children cEnd rest _ _ =>
    simp only [Forest.events, List.cons_append, List.append_assoc] at hi
    cases fuel with
    | zero => omega
    | succ fuel =>
      unfold readString
      rw [if_neg (by simp [he, hin.stack]), next_start dbg s base x hin n a ns p _ hi]
      simp only [Forest.firstElem]
      refine ⟨{ inner := { s.inner with pos := p, items := children.events ++ (.endElement n, cEnd) :: (rest.events ++ (.endElement x.name, endPos) :: tail) }, depth := base.length + 2, stack := base ++ [x] ++ [⟨n, p⟩] }, ?_, rfl, rfl, ?_⟩
      · simp
      · refine ⟨⟨[n, x.name], ?_, rfl⟩, ?_, ?_, rfl, rfl⟩
        · exact Leads.forest children (.end_ (Leads.forest rest (.end_ (.done _))))
        · simp
        · simp

theorem visitAttrs_spec {σ : Type} (V : Visitor σ) (stack : List StackElem) (pos : Pos) (l : List XAttr) (v : σ) :
    visitAttrs V stack pos l v = match attributes V stack pos l v with
      | .error f => .error f
      | .ok (v, .error e) => .ok (v, .error (.propagate e))
      | .ok (v, .ok ()) => .ok (v, .ok ()) := by
  induction l generalizing v with
  | nil => rfl
  | cons a l ih =>
    unfold visitAttrs attributes
    cases V.onAttr v a.name.expanded a.value with
    | error f => rfl
    | ok r =>
      obtain ⟨v', r⟩ := r
      cases r with
      | error e => cases e <;> rfl
      | ok u => exact ih v'

/-- What `readLoop` does on the content `f` of `x`, in terms of the tree traversal. -/
def LoopOk {σ : Type} (base : List StackElem) (x : StackElem) (ns : NsMap) (endPos : Pos)
    (tail : List (XEvent × Pos)) (s : RState)
    (spec : Except Fault (σ × Except (Error × Stop) Unit)) (got : Except Fault (σ × Except VErr ReadToOk × RState)) : Prop :=
  match spec with
  | .error f => got = .error f
  | .ok (v, .ok ()) => got = .ok (v, .ok (x.name, ns, endPos),
      { inner := { s.inner with pos := endPos, items := tail }, depth := base.length, stack := base ++ [x] })
  | .ok (v, .error (e, stop)) => ∃ s', got = .ok (v, .error (.propagate e), s') ∧
      s'.stack = stop.path ∧ s'.inner.pos = stop.pos ∧ Failed s s' base tail

theorem readLoop_spec {σ : Type} (dbg : Bool) (V : Visitor σ) (H : dbg = false ∨ NoSwallow V) (f : Forest)
    (base : List StackElem) (x : StackElem) (endPos : Pos) (tail : List (XEvent × Pos)) (er : ElemReader)
    (he : er.stackPos = base.length) (fuel : Nat) (v : σ) (s : RState) (hin : Inside s base x)
    (hi : s.inner.items = f.events ++ (.endElement x.name, endPos) :: tail) (hf : f.events.length + 1 ≤ fuel) :
    LoopOk base x er.ns endPos tail s (content V (base ++ [x]) f v) (readLoop dbg V fuel er v s) := by
  induction f generalizing base x endPos tail er fuel v s with
  | nil =>
    simp only [Forest.events, List.nil_append] at hi
    cases fuel with
    | zero => omega
    | succ fuel =>
      simp only [content, LoopOk]
      unfold readLoop
      rw [if_neg (by simp [he, hin.stack]), next_end dbg s base x hin endPos tail hi]
  | misc m p rest ih =>
    simp only [Forest.events, List.cons_append] at hi
    rw [readLoop_misc dbg V er fuel v s m p _ hi]
    have := ih base x endPos tail er he fuel v { s with inner := { s.inner with items := rest.events ++ (.endElement x.name, endPos) :: tail } }
      ⟨hin.depth, hin.stack⟩ rfl (by simp [Forest.events] at hf; omega)
    simp only [content]
    revert this
    unfold LoopOk
    split
    · exact id
    · exact id
    · rintro ⟨s', h1, h2, h3, h4⟩
      exact ⟨s', h1, h2, h3, ⟨h4.lead, h4.le, h4.take, h4.final, h4.finalPos⟩⟩
  | chars str cd p rest ih =>
    simp only [Forest.events, List.cons_append] at hi
    cases fuel with
    | zero => omega
    | succ fuel =>
      unfold readLoop
      rw [if_neg (by simp [he, hin.stack]), next_chars dbg s base x hin str cd p _ hi]
      simp only [content]
      cases V.onChars v str p with
      | error f => rfl
      | ok r =>
        obtain ⟨v', r⟩ := r
        cases r with
        | error e =>
          refine ⟨_, rfl, rfl, rfl, ⟨⟨[x.name], ?_, rfl⟩, ?_, ?_, rfl, rfl⟩⟩
          · exact Leads.forest rest (.end_ (.done _))
          · simp
          · simp
        | ok u =>
          have := ih base x endPos tail er he fuel v' { inner := { s.inner with pos := p, items := rest.events ++ (.endElement x.name, endPos) :: tail }, depth := base.length + 1, stack := base ++ [x] }
            ⟨rfl, rfl⟩ rfl (by simp [Forest.events] at hf; omega)
          revert this
          unfold LoopOk
          simp only
          split
          · exact id
          · exact id
          · rintro ⟨s', h1, h2, h3, h4⟩
            exact ⟨s', h1, h2, h3, ⟨h4.lead, h4.le, h4.take, h4.final, h4.finalPos⟩⟩
  | elem n a ns p children cEnd rest ihc ihr =>
    simp only [Forest.events, List.cons_append, List.append_assoc] at hi
    cases fuel with
    | zero => omega
    | succ fuel =>
      have hfc : children.events.length + 1 ≤ fuel := by simp [Forest.events] at hf; omega
      have hfr : rest.events.length + 1 ≤ fuel := by simp [Forest.events] at hf; omega
      unfold readLoop
      rw [if_neg (by simp [he, hin.stack]), next_start dbg s base x hin n a ns p _ hi]
      simp only [he]
      rw [show (base ++ [x] ++ [⟨n, p⟩])[base.length + 1]? = some (⟨n, p⟩ : StackElem) by simp]
      simp only
      unfold content
      simp only
      have hlen : (base ++ [x] ++ [(⟨n, p⟩ : StackElem)]).length = base.length + 1 + 1 := by simp
      rw [hlen]
      -- the state right after the start tag
      generalize hs1 : ({ inner := { s.inner with pos := p, items := children.events ++ (.endElement n, cEnd) :: (rest.events ++ (.endElement x.name, endPos) :: tail) }, depth := base.length + 2, stack := base ++ [x] ++ [⟨n, p⟩] } : RState) = s1
      have hin1 : Inside s1 (base ++ [x]) ⟨n, p⟩ := by subst hs1; exact ⟨by simp, rfl⟩
      have hi1 : s1.inner.items = children.events ++ (.endElement n, cEnd) :: (rest.events ++ (.endElement x.name, endPos) :: tail) := by subst hs1; rfl
      have hfin1 : s1.inner.final = s.inner.final := by subst hs1; rfl
      have hfinp1 : s1.inner.finalPos = s.inner.finalPos := by subst hs1; rfl
      have hpos1 : s1.inner.pos = p := by subst hs1; rfl
      clear hs1
      -- what happens after `visitor.element` returned
      have after : ∀ (r : Except Fault (σ × Except VErr Unit)) (s2 : RState) (stop : Stop) (o : List QName),
          s2.stack = stop.path → s2.inner.pos = stop.pos →
          Leads o s2.inner.items (rest.events ++ (.endElement x.name, endPos) :: tail) →
          s2.depth = base.length + 1 + o.length → s2.depth ≤ s2.stack.length →
          s2.stack.take (base.length + 1) = base ++ [x] →
          s2.inner.final = s.inner.final → s2.inner.finalPos = s.inner.finalPos →
          (dbg = false ∨ Synced s2 (base.length + 1) o ∨ o = [] ∨ ∀ v', r ≠ .ok (v', .ok ())) →
          LoopOk base x er.ns endPos tail s
            (match (Except.ok (r, stop) : Except Fault (Except Fault (σ × Except VErr Unit) × Stop)) with
              | .error f => .error f
              | .ok (.error f, _) => .error f
              | .ok (.ok (v, .error (.propagate e)), stop) => .ok (v, .error (e, stop))
              | .ok (.ok (v, .error (.wrap e)), stop) =>
                .ok (v, .error ({ kind := .deserializer e, stack := stop.path, pos := p }, stop))
              | .ok (.ok (v, .ok ()), _) => content V (base ++ [x]) rest v)
            (match (Except.ok (r, s2) : Except Fault (Except Fault (σ × Except VErr Unit) × RState)) with
              | .error f => .error f
              | .ok (.error f, _) => .error f
              | .ok (.ok (v, .error e), s) => .ok (v, .error (.propagate (e.toError s.stack p)), s)
              | .ok (.ok (v, .ok ()), s) =>
                match returnToDepth dbg (base.length + 1) s with
                | .error f => .error f
                | .ok (.error e, s) => .ok (v, .error (.propagate e), s)
                | .ok (.ok (), s) => readLoop dbg V fuel er v s) := by
        intro r s2 stop o hst hps hl hdep h2 h3 h4 h5 hd
        have hfail' : Failed s s2 base tail := by
          refine ⟨⟨o ++ [x.name], hl.trans (Leads.forest rest (.end_ (.done _))), by simp; omega⟩, h2, ?_, h4, h5⟩
          have := congrArg (List.take base.length) h3
          rw [List.take_take] at this
          simpa using this
        cases r with
        | error f => rfl
        | ok r =>
          obtain ⟨v', r⟩ := r
          cases r with
          | error e =>
            cases e with
            | propagate e => exact ⟨s2, rfl, hst, hps, hfail'⟩
            | wrap e => exact ⟨s2, by simp only [VErr.toError, hst], hst, hps, hfail'⟩
          | ok u =>
            have hsk : dbg = false ∨ Synced s2 (base.length + 1) o ∨ o = [] := by
              rcases hd with h | h | h | h
              · exact .inl h
              · exact .inr (.inl h)
              · exact .inr (.inr h)
              · exact absurd rfl (h v')
            obtain ⟨q, hq⟩ := returnToDepth_spec dbg (base.length + 1) o _ s2 hl hdep h2 hsk
            simp only
            rw [hq]
            simp only
            have := ihr base x endPos tail er he fuel v' { inner := { s2.inner with pos := q, items := rest.events ++ (.endElement x.name, endPos) :: tail }, depth := base.length + 1, stack := s2.stack.take (base.length + 1) }
              ⟨rfl, h3⟩ rfl hfr
            rw [h3] at this ⊢
            revert this
            unfold LoopOk
            simp only
            split
            · exact id
            · simp only [h4, h5]; exact id
            · rintro ⟨s', g1, g2, g3, g4⟩
              exact ⟨s', g1, g2, g3, ⟨g4.lead, g4.le, g4.take, g4.final.trans h4, g4.finalPos.trans h5⟩⟩
      have hNS : dbg = false ∨ Action.NoSwallow (fun r => ∀ v', r ≠ Except.ok (v', Except.ok ()))
          (V.onElem v { name := n, ns := ns, depth := base.length + 1 + 1 }) := by
        rcases H with h | h
        · exact .inl h
        · exact .inr (h _ _)
      cases hact : V.onElem v { name := n, ns := ns, depth := base.length + 1 + 1 } with
      | done r =>
        refine after r s1 ⟨base ++ [x] ++ [⟨n, p⟩], p⟩ [n] hin1.stack hpos1 ?_ ?_ ?_ ?_ hfin1 hfinp1 ?_
        · rw [hi1]; exact Leads.forest children (.end_ (.done _))
        · rw [hin1.depth]; simp
        · rw [hin1.depth, hin1.stack]; simp
        · rw [hin1.stack]; exact List.take_left' (by simp)
        · right; left
          refine ⟨by rw [hin1.depth, hin1.stack]; simp, ?_⟩
          rw [hin1.stack]
          simp
      | readString k =>
        rw [hact] at hNS
        have := readString_spec dbg { ns := ns, attrs := a, stackPos := base.length + 1 } (base ++ [x]) ⟨n, p⟩ cEnd
          (rest.events ++ (.endElement x.name, endPos) :: tail) (by simp) children fuel "" s1 hin1 hi1 hfc
        cases hfe : children.firstElem with
        | none =>
          rw [hfe] at this
          simp only at this ⊢
          rw [this]
          rw [show asText (base ++ [x] ++ [⟨n, p⟩]) children cEnd = (.ok ("" ++ children.text), ⟨base ++ [x] ++ [⟨n, p⟩], cEnd⟩) by simp [asText, hfe]]
          refine after (k (.ok ("" ++ children.text))) { inner := { s1.inner with pos := cEnd, items := rest.events ++ (.endElement x.name, endPos) :: tail }, depth := (base ++ [x]).length, stack := base ++ [x] ++ [⟨n, p⟩] } ⟨base ++ [x] ++ [⟨n, p⟩], cEnd⟩ [] rfl rfl ?_ ?_ ?_ ?_ ?_ ?_ ?_
          · exact .done _
          · simp
          · simp
          · exact List.take_left' (by simp)
          · exact hfin1
          · exact hfinp1
          · exact .inr (.inr (.inl rfl))
        | some c =>
          rw [hfe] at this
          simp only at this ⊢
          obtain ⟨s', h1, h2, h3, ⟨⟨o, g1, g1'⟩, g2, g3, g4, g5⟩⟩ := this
          rw [h1]
          simp only [asText, hfe]
          refine after _ s' ⟨base ++ [x] ++ [⟨n, p⟩] ++ [c], c.pos⟩ o h2 h3 g1 (by simpa using g1') g2 (by simpa using g3)
            (g4.trans hfin1) (g5.trans hfinp1) ?_
          rcases hNS with h | h
          · exact .inl h
          · exact .inr (.inr (.inr (h _)))
      | readTo sub k =>
        rw [hact] at hNS
        simp only
        rw [visitAttrs_spec]
        cases attributes V (base ++ [x] ++ [⟨n, p⟩]) p a sub with
        | error f => rfl
        | ok r =>
          obtain ⟨sub', r⟩ := r
          cases r with
          | error e =>
            simp only
            refine after (k sub' (.error (.propagate e))) s1 ⟨base ++ [x] ++ [⟨n, p⟩], p⟩ [n] hin1.stack hpos1 ?_ ?_ ?_ ?_ hfin1 hfinp1 ?_
            · rw [hi1]; exact Leads.forest children (.end_ (.done _))
            · rw [hin1.depth]; simp
            · rw [hin1.depth, hin1.stack]; simp
            · rw [hin1.stack]; exact List.take_left' (by simp)
            · right; left
              refine ⟨by rw [hin1.depth, hin1.stack]; simp, ?_⟩
              rw [hin1.stack]
              simp
          | ok u =>
            simp only
            have := ihc (base ++ [x]) ⟨n, p⟩ cEnd (rest.events ++ (.endElement x.name, endPos) :: tail)
              { ns := ns, attrs := a, stackPos := base.length + 1 } (by simp) fuel sub' s1 hin1 hi1 hfc
            revert this
            unfold LoopOk
            cases content V (base ++ [x] ++ [⟨n, p⟩]) children sub' with
            | error f => intro h; rw [h]
            | ok r =>
              obtain ⟨sub'', r⟩ := r
              cases r with
              | ok u =>
                intro h
                simp only at h
                rw [h]
                refine after (k sub'' (.ok (n, ns, cEnd))) { inner := { s1.inner with pos := cEnd, items := rest.events ++ (.endElement x.name, endPos) :: tail }, depth := (base ++ [x]).length, stack := base ++ [x] ++ [⟨n, p⟩] } ⟨base ++ [x] ++ [⟨n, p⟩], cEnd⟩ [] rfl rfl ?_ ?_ ?_ ?_ ?_ ?_ ?_
                · exact .done _
                · simp
                · simp
                · exact List.take_left' (by simp)
                · exact hfin1
                · exact hfinp1
                · exact .inr (.inr (.inl rfl))
              | error e =>
                obtain ⟨e, stop⟩ := e
                rintro ⟨s', h1, h2, h3, ⟨⟨o, g1, g1'⟩, g2, g3, g4, g5⟩⟩
                rw [h1]
                refine after (k sub'' (.error (.propagate e))) s' stop o h2 h3 g1 (by simpa using g1') g2 (by simpa using g3)
                  (g4.trans hfin1) (g5.trans hfinp1) ?_
                rcases hNS with h | h
                · exact .inl h
                · exact .inr (.inr (.inr (h _ _)))

theorem next_miscs (dbg : Bool) (l : List (Misc × Pos)) (s : RState) (tail : List (XEvent × Pos))
    (h : s.inner.items = miscEvents l ++ tail) :
    next dbg s = next dbg { s with inner := { s.inner with items := tail } } := by
  induction l generalizing s with
  | nil =>
    simp only [miscEvents, List.map_nil, List.nil_append] at h
    rw [← h]
  | cons m l ih =>
    simp only [miscEvents, List.map_cons, List.cons_append] at h
    rw [next_misc dbg s _ _ _ h]
    exact ih { s with inner := { s.inner with items := miscEvents l ++ tail } } rfl

theorem endLoop_miscs (finalPos : Pos) (l : List (Misc × Pos)) (h : ∀ m ∈ l, outsideOk m.1) :
    endLoop .eof finalPos (miscEvents l) = .ok () := by
  induction l with
  | nil => rfl
  | cons m l ih =>
    obtain ⟨m, p⟩ := m
    have hm := h (m, p) (by simp)
    have ih' := ih (fun x hx => h x (by simp [hx]))
    simp only [miscEvents, List.map_cons] at ih' ⊢
    cases m with
    | comment s => exact ih'
    | pi a b => exact ih'
    | whitespace s => exact absurd hm id

/-- An implementation run on the element `x` (root or not): the same as on the tree, and the reader is left
in a state from which the rest of the element can be skipped. -/
theorem runDeser_spec {σ α : Type} (dbg : Bool) (V : Visitor σ) (D : Deser σ α)
    (H : dbg = false ∨ NoSwallow V ∧ DeserNoSwallow D)
    (base : List StackElem) (x : Elem) (tail : List (XEvent × Pos)) (fuel : Nat) (s : RState)
    (hin : Inside s base ⟨x.name, x.pos⟩) (hpos : s.inner.pos = x.pos)
    (hi : s.inner.items = x.children.events ++ (.endElement x.name, x.endPos) :: tail)
    (hf : x.children.events.length + 1 ≤ fuel) :
    match deser V D base x with
    | .error f => runDeser dbg V D fuel { ns := x.ns, attrs := x.attrs, stackPos := base.length } s = .error f
    | .ok (r, stop) => ∃ s', runDeser dbg V D fuel { ns := x.ns, attrs := x.attrs, stackPos := base.length } s = .ok (r, s') ∧
        s'.stack = stop.path ∧ s'.inner.pos = stop.pos ∧ Failed s s' base tail ∧
        (∀ a, r = .ok a → dbg = false ∨ (∃ o, Leads o s'.inner.items tail ∧ s'.depth = base.length + o.length ∧
          (Synced s' base.length o ∨ o = []))) := by
  have hNS : dbg = false ∨ Action.NoSwallow (fun r => ∀ a, r ≠ Except.ok (Except.ok a))
      (D { name := x.name, ns := x.ns, depth := base.length + 1 }) := by
    rcases H with h | h
    · exact .inl h
    · exact .inr (h.2 _)
  have H' : dbg = false ∨ NoSwallow V := by
    rcases H with h | h
    · exact .inl h
    · exact .inr h.1
  unfold runDeser deser
  simp only [hin.stack]
  rw [show (base ++ [(⟨x.name, x.pos⟩ : StackElem)])[base.length]? = some ⟨x.name, x.pos⟩ by simp]
  rw [show (base ++ [(⟨x.name, x.pos⟩ : StackElem)]).length = base.length + 1 by simp]
  simp only
  have hlead : Leads [x.name] s.inner.items tail := by
    rw [hi]; exact Leads.forest x.children (.end_ (.done _))
  have hsync : Synced s base.length [x.name] := by
    refine ⟨by rw [hin.depth, hin.stack]; simp, ?_⟩
    rw [hin.stack]; simp
  have hfail : Failed s s base tail := by
    refine ⟨⟨[x.name], hlead, by simp [hin.depth]⟩, by rw [hin.depth, hin.stack]; simp, by rw [hin.stack]; simp, rfl, rfl⟩
  -- after the implementation is done
  have after : ∀ (r : Except Fault (Except VErr α)) (s2 : RState) (stop : Stop) (o : List QName),
      s2.stack = stop.path → s2.inner.pos = stop.pos → Failed s s2 base tail →
      Leads o s2.inner.items tail → s2.depth = base.length + o.length →
      (dbg = false ∨ Synced s2 base.length o ∨ o = [] ∨ ∀ a, r ≠ .ok (.ok a)) →
      match ((match (Except.ok (r, stop) : Except Fault (Except Fault (Except VErr α) × Stop)) with
        | .error f => .error f
        | .ok (.error f, _) => .error f
        | .ok (.ok r, stop) => .ok (r, stop)) : Except Fault (Except VErr α × Stop)) with
      | .error f => (match (Except.ok (r, s2) : Except Fault (Except Fault (Except VErr α) × RState)) with
          | .error f => .error f
          | .ok (.error f, _) => .error f
          | .ok (.ok r, s) => .ok (r, s)) = (.error f : Except Fault (Except VErr α × RState))
      | .ok (r', stop) => ∃ s', (match (Except.ok (r, s2) : Except Fault (Except Fault (Except VErr α) × RState)) with
          | .error f => .error f
          | .ok (.error f, _) => .error f
          | .ok (.ok r, s) => .ok (r, s)) = (.ok (r', s') : Except Fault (Except VErr α × RState)) ∧
        s'.stack = stop.path ∧ s'.inner.pos = stop.pos ∧ Failed s s' base tail ∧
        (∀ a, r' = .ok a → dbg = false ∨ (∃ o, Leads o s'.inner.items tail ∧ s'.depth = base.length + o.length ∧
          (Synced s' base.length o ∨ o = []))) := by
    intro r s2 stop o h1 h2 h3 h4 h5 h6
    cases r with
    | error f => rfl
    | ok r =>
      refine ⟨s2, rfl, h1, h2, h3, ?_⟩
      intro a ha
      rcases h6 with h | h | h | h
      · exact .inl h
      · exact .inr ⟨o, h4, h5, .inl h⟩
      · exact .inr ⟨o, h4, h5, .inr h⟩
      · exact absurd (by rw [ha]) (h a)
  have endState : Failed s { inner := { s.inner with pos := x.endPos, items := tail }, depth := base.length, stack := base ++ [⟨x.name, x.pos⟩] } base tail := by
    exact ⟨⟨[], .done _, by simp⟩, by simp, by simp, rfl, rfl⟩
  cases hact : D { name := x.name, ns := x.ns, depth := base.length + 1 } with
  | done r =>
    exact after r s ⟨base ++ [⟨x.name, x.pos⟩], x.pos⟩ [x.name] hin.stack hpos hfail hlead (by simp [hin.depth]) (.inr (.inl hsync))
  | readString k =>
    rw [hact] at hNS
    have := readString_spec dbg { ns := x.ns, attrs := x.attrs, stackPos := base.length } base ⟨x.name, x.pos⟩ x.endPos
      tail rfl x.children fuel "" s hin hi hf
    cases hfe : x.children.firstElem with
    | none =>
      rw [hfe] at this
      simp only at this ⊢
      rw [this]
      rw [show asText (base ++ [⟨x.name, x.pos⟩]) x.children x.endPos = (.ok ("" ++ x.children.text), ⟨base ++ [⟨x.name, x.pos⟩], x.endPos⟩) by simp [asText, hfe]]
      exact after (k (.ok ("" ++ x.children.text))) _ ⟨base ++ [⟨x.name, x.pos⟩], x.endPos⟩ [] rfl rfl endState (.done _) (by simp) (.inr (.inr (.inl rfl)))
    | some c =>
      rw [hfe] at this
      simp only at this ⊢
      obtain ⟨s', h1, h2, h3, h4⟩ := this
      rw [h1]
      simp only [asText, hfe]
      obtain ⟨o, g1, g2⟩ := h4.lead
      refine after _ s' ⟨base ++ [⟨x.name, x.pos⟩] ++ [c], c.pos⟩ o h2 h3 h4 g1 g2 ?_
      rcases hNS with h | h
      · exact .inl h
      · exact .inr (.inr (.inr (h _)))
  | readTo sub k =>
    rw [hact] at hNS
    simp only
    unfold readTo
    simp only [hin.stack]
    rw [show (base ++ [(⟨x.name, x.pos⟩ : StackElem)])[base.length]? = some ⟨x.name, x.pos⟩ by simp]
    simp only
    rw [visitAttrs_spec]
    cases attributes V (base ++ [⟨x.name, x.pos⟩]) x.pos x.attrs sub with
    | error f => rfl
    | ok r =>
      obtain ⟨sub', r⟩ := r
      cases r with
      | error e =>
        simp only
        exact after (k sub' (.error (.propagate e))) s ⟨base ++ [⟨x.name, x.pos⟩], x.pos⟩ [x.name] hin.stack hpos hfail hlead (by simp [hin.depth]) (.inr (.inl hsync))
      | ok u =>
        simp only
        have := readLoop_spec dbg V H' x.children base ⟨x.name, x.pos⟩ x.endPos tail
          { ns := x.ns, attrs := x.attrs, stackPos := base.length } rfl fuel sub' s hin hi hf
        revert this
        unfold LoopOk
        cases content V (base ++ [⟨x.name, x.pos⟩]) x.children sub' with
        | error f => intro h; simp only at h ⊢; rw [h]
        | ok r =>
          obtain ⟨sub'', r⟩ := r
          cases r with
          | ok u =>
            intro h
            simp only at h ⊢
            rw [h]
            exact after (k sub'' (.ok (x.name, x.ns, x.endPos))) _ ⟨base ++ [⟨x.name, x.pos⟩], x.endPos⟩ [] rfl rfl endState (.done _) (by simp) (.inr (.inr (.inl rfl)))
          | error e =>
            obtain ⟨e, stop⟩ := e
            rintro ⟨s', h1, h2, h3, h4⟩
            simp only at h1 ⊢
            rw [h1]
            obtain ⟨o, g1, g2⟩ := h4.lead
            refine after (k sub'' (.error (.propagate e))) s' stop o h2 h3 h4 g1 g2 ?_
            rcases hNS with h | h
            · exact .inl h
            · exact .inr (.inr (.inr (h _ _)))

/-- The reader, run on the events of a document, is the traversal of the tree. -/
theorem read_spec {σ α : Type} (dbg : Bool) (V : Visitor σ) (D : Deser σ α)
    (H : dbg = false ∨ NoSwallow V ∧ DeserNoSwallow D) (d : Doc) :
    read dbg V D d.input = readDoc V D d := by
  unfold read root
  simp only [Doc.input, Input.start]
  rw [next_miscs dbg d.prolog _ _ rfl]
  have hn : next dbg { inner := { pos := d.startPos, items := ((.startElement d.root.name d.root.attrs d.root.ns, d.root.pos) ::
      (d.root.children.events ++ (.endElement d.root.name, d.root.endPos) :: miscEvents d.epilog)), final := .eof, finalPos := d.eofPos }, depth := 0, stack := [] }
      = .ok (.ok (.start d.root.attrs d.root.ns, d.root.pos), { inner := { pos := d.root.pos, items := d.root.children.events ++ (.endElement d.root.name, d.root.endPos) :: miscEvents d.epilog, final := .eof, finalPos := d.eofPos }, depth := 1, stack := [⟨d.root.name, d.root.pos⟩] }) := by
    unfold next
    simp [nextLoop]
  simp only
  rw [hn]
  simp only
  have := runDeser_spec dbg V D H [] d.root (miscEvents d.epilog)
    ((d.root.children.events ++ (.endElement d.root.name, d.root.endPos) :: miscEvents d.epilog).length + 1)
    { inner := { pos := d.root.pos, items := d.root.children.events ++ (.endElement d.root.name, d.root.endPos) :: miscEvents d.epilog, final := .eof, finalPos := d.eofPos }, depth := 1, stack := [⟨d.root.name, d.root.pos⟩] }
    ⟨rfl, rfl⟩ rfl rfl (by simp)
  unfold readDoc
  revert this
  cases deser V D [] d.root with
  | error f => intro h; simp only [List.length_nil] at h ⊢; rw [h]
  | ok r =>
    obtain ⟨r, stop⟩ := r
    rintro ⟨s', h1, h2, h3, h4, h5⟩
    simp only [List.length_nil] at h1 ⊢
    rw [h1]
    cases r with
    | error e =>
      cases e with
      | propagate e => rfl
      | wrap e => simp only [VErr.toError, h2, h3]
    | ok a =>
      simp only
      have : ∃ o, Leads o s'.inner.items (miscEvents d.epilog) ∧ s'.depth = 0 + o.length ∧ (dbg = false ∨ Synced s' 0 o ∨ o = []) := by
        rcases h5 a rfl with h | ⟨o, g1, g2, g3⟩
        · obtain ⟨o, g1, g2⟩ := h4.lead
          exact ⟨o, g1, g2, .inl h⟩
        · exact ⟨o, g1, g2, .inr g3⟩
      obtain ⟨o, g1, g2, g3⟩ := this
      obtain ⟨p, hp⟩ := returnToDepth_spec dbg 0 o _ s' g1 g2 h4.le g3
      unfold endDoc
      rw [hp]
      simp only [h4.final]
      rw [endLoop_miscs _ _ d.epilogOk]

end SX
