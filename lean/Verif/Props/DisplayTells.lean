import Verif.Props.Display

/-
C39: what can be told from a whole displayed error.
-/
namespace SX
open Spec

/-- The text after the last space, and what is before it. -/
theorem last_space_split {a b u v : List Char} (hu : ' ' ∉ u) (hv : ' ' ∉ v) (h : a ++ ' ' :: u = b ++ ' ' :: v) : a = b ∧ u = v := by
  have h' := congrArg List.reverse h
  simp only [List.reverse_append, List.reverse_cons, List.append_assoc, List.cons_append, List.nil_append] at h'
  have := space_split (a := u.reverse) (b := v.reverse) (by simpa using hu) (by simpa using hv) h'
  exact ⟨List.reverse_inj.mp this.2, List.reverse_inj.mp this.1⟩

/-- The text up to a character that occurs in neither part. -/
theorem char_split (c : Char) {a b u v : List Char} (ha : c ∉ a) (hb : c ∉ b) (h : a ++ c :: u = b ++ c :: v) : a = b ∧ u = v := by
  induction a generalizing b with
  | nil =>
    cases b with
    | nil => simp at h; exact ⟨rfl, h⟩
    | cons d b => simp at h; simp [h.1] at hb
  | cons d a ih =>
    cases b with
    | nil => simp at h; simp [h.1] at ha
    | cons d' b =>
      simp only [List.cons_append, List.cons.injEq] at h
      obtain ⟨h1, h2⟩ := ih (by simp at ha; exact ha.2) (by simp at hb; exact hb.2) h.2
      exact ⟨by rw [h.1, h1], h2⟩

theorem digits_no {n : Nat} {c : Char} (hc : ¬ isDecDigit c) : c ∉ natDigits n :=
  fun h => hc ((natDigits_isDec n).digits c h)

theorem natDigits_inj {m n : Nat} (h : natDigits m = natDigits n) : m = n := by
  rw [← (natDigits_isDec m).value, ← (natDigits_isDec n).value, h]

theorem posDisplay_inj {p q : Pos} (h : p.display = q.display) : p = q := by
  obtain ⟨h1, h2⟩ := char_split ':' (digits_no (by simp [isDecDigit])) (digits_no (by simp [isDecDigit])) h
  have := natDigits_inj h1
  have := natDigits_inj h2
  cases p; cases q
  simp_all

theorem posDisplay_no (p : Pos) (c : Char) (hc : ¬ isDecDigit c) (h : c ≠ ':') : c ∉ p.display := by
  simp [Pos.display, digits_no hc, h]

/-- A name as shown tells its prefix and its local part. -/
theorem repr_inj {m n : QName} (hm : ':' ∉ m.loc.toList ∧ ∀ p, m.pfx = some p → ':' ∉ p.toList) (hn : ':' ∉ n.loc.toList ∧ ∀ p, n.pfx = some p → ':' ∉ p.toList)
    (h : m.repr = n.repr) : m.pfx = n.pfx ∧ m.loc = n.loc := by
  obtain ⟨ml, mn, mp⟩ := m
  obtain ⟨nl, nn, np⟩ := n
  cases mp with
  | none =>
    cases np with
    | none => exact ⟨rfl, String.toList_inj.mp h⟩
    | some q =>
      simp only [QName.repr] at h
      exact absurd (h ▸ hm.1) (by simp)
  | some p =>
    cases np with
    | none =>
      simp only [QName.repr] at h
      exact absurd (h ▸ hn.1) (by simp)
    | some q =>
      simp only [QName.repr] at h
      obtain ⟨h1, h2⟩ := char_split ':' (hm.2 p rfl) (hn.2 q rfl) h
      exact ⟨congrArg some (String.toList_inj.mp h1), String.toList_inj.mp h2⟩

/-- The line for an element, without the line break. -/
def lineBody (i : Nat) (e : StackElem) : List Char := hex4 i ++ ": <".toList ++ e.name.repr ++ "> @ ".toList ++ e.pos.display

theorem lineBody_inj {d : Nat} {s t : StackElem} (h : lineBody d s = lineBody d t) : s.name.repr = t.name.repr ∧ s.pos = t.pos := by
  unfold lineBody at h
  rw [List.append_assoc, List.append_assoc, List.append_assoc, List.append_assoc, List.append_assoc, List.append_assoc] at h
  have h := List.append_cancel_left (List.append_cancel_left h)
  rw [show "> @ ".toList = "> @".toList ++ [' '] from by decide] at h
  simp only [List.append_assoc, List.cons_append, List.nil_append] at h
  rw [← List.append_assoc, ← List.append_assoc] at h
  obtain ⟨h1, h2⟩ := last_space_split (posDisplay_no _ _ (by simp [isDecDigit]) (by decide)) (posDisplay_no _ _ (by simp [isDecDigit]) (by decide)) h
  exact ⟨List.append_cancel_right h1, posDisplay_inj h2⟩

theorem lineBody_line (d : Nat) (s : StackElem) (hn : OneLine s.name) : '\n' ∉ lineBody d s := by
  obtain ⟨l, h1, h2⟩ := stackLine_spec d s
  have : l = lineBody d s := List.append_cancel_right (bs := ['\n']) (by rw [← h1]; rfl)
  exact this ▸ C39_one_line d s l h2 hn

/-- Lines end where they end. -/
theorem lines_inj (as bs : List (List Char)) (ha : ∀ l ∈ as, '\n' ∉ l) (hb : ∀ l ∈ bs, '\n' ∉ l)
    (h : as.flatMap (· ++ ['\n']) = bs.flatMap (· ++ ['\n'])) : as = bs := by
  induction as generalizing bs with
  | nil =>
    cases bs with
    | nil => rfl
    | cons b bs => simp at h
  | cons a as ih =>
    cases bs with
    | nil => simp at h
    | cons b bs =>
      simp only [List.flatMap_cons, List.append_assoc, List.cons_append, List.nil_append] at h
      obtain ⟨h1, h2⟩ := char_split '\n' (ha a (by simp)) (hb b (by simp)) h
      rw [h1, ih bs (fun l hl => ha l (by simp [hl])) (fun l hl => hb l (by simp [hl])) h2]

/-- The first line, if what follows is nothing or starts with a line break. -/
theorem first_line {a b r s : List Char} (ha : '\n' ∉ a) (hb : '\n' ∉ b) (hr : r = [] ∨ ∃ t, r = '\n' :: t) (hs : s = [] ∨ ∃ t, s = '\n' :: t)
    (h : a ++ r = b ++ s) : a = b ∧ r = s := by
  rcases hr with rfl | ⟨r, rfl⟩ <;> rcases hs with rfl | ⟨s, rfl⟩
  · simp at h; exact ⟨h, rfl⟩
  · rw [List.append_nil] at h
    exact absurd (h ▸ ha) (by simp)
  · rw [List.append_nil] at h
    exact absurd (h ▸ hb) (by simp)
  · obtain ⟨h1, h2⟩ := char_split '\n' ha hb h
    exact ⟨h1, by rw [h2]⟩

/-- What an error says of an element of its stack. -/
def Spec.told (s : StackElem) : Option String × String × Pos := (s.name.pfx, s.name.loc, s.pos)

/-- Names without colons. -/
def Spec.NoColons (n : QName) : Prop := ':' ∉ n.loc.toList ∧ ∀ p, n.pfx = some p → ':' ∉ p.toList

/-- C39: from a displayed error one can tell the cause as it is shown by itself, the position, and of all elements of the stack the prefixes, local names and positions. -/
theorem C39_tells (x : Ext) (a b : Error) (ka : '\n' ∉ (a.kind.display x).toList) (kb : '\n' ∉ (b.kind.display x).toList)
    (ha : ∀ s ∈ a.stack, OneLine s.name ∧ NoColons s.name) (hb : ∀ s ∈ b.stack, OneLine s.name ∧ NoColons s.name) (h : a.display x = b.display x) :
    a.kind.display x = b.kind.display x ∧ a.pos = b.pos ∧ a.stack.map told = b.stack.map told := by
  have hsh : ∀ e : Error, ∃ r, e.display x = ((e.kind.display x).toList ++ " @ ".toList ++ e.pos.display) ++ r ∧ (r = [] ∨ ∃ t, r = '\n' :: t) ∧
      r = if e.stack.isEmpty then [] else "\n\nXML element stack:\n".toList ++ (e.stack.zipIdx.reverse.map fun y => lineBody y.2 y.1).flatMap (· ++ ['\n']) := by
    intro e
    refine ⟨_, rfl, ?_, ?_⟩
    · split
      · exact .inl rfl
      · exact .inr ⟨_, rfl⟩
    · rw [List.flatMap_map]
      rfl
  obtain ⟨r, a1, a2, a3⟩ := hsh a
  obtain ⟨s, b1, b2, b3⟩ := hsh b
  have no : ∀ e : Error, '\n' ∉ (e.kind.display x).toList → '\n' ∉ (e.kind.display x).toList ++ " @ ".toList ++ e.pos.display := by
    intro e he
    have := posDisplay_no e.pos '\n' (by simp [isDecDigit]) (by decide)
    simp [he, this]
  rw [a1, b1] at h
  obtain ⟨h1, h2⟩ := first_line (no a ka) (no b kb) a2 b2 h
  rw [show " @ ".toList = " @".toList ++ [' '] from by decide] at h1
  simp only [List.append_assoc, List.cons_append, List.nil_append] at h1
  rw [← List.append_assoc, ← List.append_assoc] at h1
  obtain ⟨h3, h4⟩ := last_space_split (posDisplay_no _ _ (by simp [isDecDigit]) (by decide)) (posDisplay_no _ _ (by simp [isDecDigit]) (by decide)) h1
  refine ⟨String.toList_inj.mp (List.append_cancel_right h3), posDisplay_inj h4, ?_⟩
  rw [a3, b3] at h2
  have hstk : (a.stack.zipIdx.reverse.map fun y => lineBody y.2 y.1) = b.stack.zipIdx.reverse.map fun y => lineBody y.2 y.1 := by
    have line : ∀ (st : List StackElem), (∀ s ∈ st, OneLine s.name ∧ NoColons s.name) → ∀ l ∈ (st.zipIdx.reverse.map fun y => lineBody y.2 y.1), '\n' ∉ l := by
      intro st hst l hl
      obtain ⟨y, hy, rfl⟩ := List.mem_map.mp hl
      exact lineBody_line _ _ (hst y.1 (List.fst_mem_of_mem_zipIdx (List.mem_reverse.mp hy))).1
    cases ha' : a.stack with
    | nil =>
      cases hb' : b.stack with
      | nil => rfl
      | cons t tb => rw [ha', hb'] at h2; simp at h2
    | cons t ta =>
      cases hb' : b.stack with
      | nil => rw [ha', hb'] at h2; simp at h2
      | cons u tb =>
        rw [ha', hb'] at h2
        have h2 : "\n\nXML element stack:\n".toList ++ _ = "\n\nXML element stack:\n".toList ++ _ := h2
        exact lines_inj _ _ (line _ (ha' ▸ ha)) (line _ (hb' ▸ hb)) (List.append_cancel_left h2)
  rw [List.map_reverse, List.map_reverse, List.reverse_inj] at hstk
  have hlen : a.stack.length = b.stack.length := by simpa using congrArg List.length hstk
  apply List.ext_getElem (by simpa using hlen)
  intro i hi1 hi2
  simp only [List.length_map] at hi1 hi2
  have hi := congrArg (fun l => l[i]?) hstk
  simp only [List.getElem?_map, List.getElem?_zipIdx, List.getElem?_eq_getElem hi1, List.getElem?_eq_getElem hi2, Option.map_some, Option.some.injEq] at hi
  obtain ⟨e1, e2⟩ := lineBody_inj hi
  obtain ⟨e3, e4⟩ := repr_inj (ha _ (List.getElem_mem hi1)).2 (hb _ (List.getElem_mem hi2)).2 e1
  simp only [List.getElem_map, told, e2, e3, e4]

/-- C39: which error of the derived code it was, about which name; what the parser said. -/
theorem C39_tells_cause (x : Ext) (a b : Error) (c d : DErr) (ha : a.kind = .deserializer c) (hb : b.kind = .deserializer d) (hc : Plain c) (hd : Plain d)
    (hnc : '\n' ∉ (c.display x).toList) (hnd : '\n' ∉ (d.display x).toList)
    (sa : ∀ s ∈ a.stack, OneLine s.name ∧ NoColons s.name) (sb : ∀ s ∈ b.stack, OneLine s.name ∧ NoColons s.name) (h : a.display x = b.display x) :
    c = d ∧ a.pos = b.pos ∧ a.stack.map told = b.stack.map told := by
  obtain ⟨h1, h2, h3⟩ := C39_tells x a b (by rw [ha]; exact hnc) (by rw [hb]; exact hnd) sa sb h
  rw [ha, hb] at h1
  exact ⟨C39_cause_injective x c d hc hd h1, h2, h3⟩

/-- The same for errors of xml-rs. -/
theorem C39_tells_xml (x : Ext) (a b : Error) (c d : XmlErr) (ha : a.kind = .xml c) (hb : b.kind = .xml d) (hnc : '\n' ∉ c.msg.toList) (hnd : '\n' ∉ d.msg.toList)
    (sa : ∀ s ∈ a.stack, OneLine s.name ∧ NoColons s.name) (sb : ∀ s ∈ b.stack, OneLine s.name ∧ NoColons s.name) (h : a.display x = b.display x) :
    c.msg = d.msg ∧ a.pos = b.pos ∧ a.stack.map told = b.stack.map told := by
  obtain ⟨h1, h2, h3⟩ := C39_tells x a b (by rw [ha]; exact hnc) (by rw [hb]; exact hnd) sa sb h
  rw [ha, hb] at h1
  exact ⟨h1, h2, h3⟩

example : ∀ s ∈ exError.stack, OneLine s.name ∧ NoColons s.name := by
  simp [exError, OneLine, NoColons]

/-- A missing element within two others. -/
def exMissing : Error := { exError with kind := .deserializer (.missingElement ⟨"urn:tt", "Minute"⟩) }

example (x : Ext) : Plain (.missingElement ⟨"urn:tt", "Minute"⟩) ∧ '\n' ∉ ((DErr.missingElement ⟨"urn:tt", "Minute"⟩).display x).toList ∧
    exMissing.kind = .deserializer (.missingElement ⟨"urn:tt", "Minute"⟩) ∧
    exMissing.stack.map told = [(some "tt", "UTCDateTime", ⟨11, 16⟩), (none, "Hour", ⟨13, 24⟩)] := by
  refine ⟨⟨⟨by decide, by decide⟩, ?_, ?_⟩, ?_, rfl, rfl⟩
  · intro c; revert c; decide
  · intro c; revert c; decide
  · have h : (DErr.missingElement ⟨"urn:tt", "Minute"⟩).display x = "Missing expected element " ++ EName.display ⟨"urn:tt", "Minute"⟩ := rfl
    rw [h]
    decide

/-- The namespace of an element of the stack is not told. -/
theorem C39_namespace_untold (x : Ext) (a : Error) (u : Option String) :
    ({ a with stack := a.stack.map fun s => { s with name := { s.name with ns := u } } } : Error).display x = a.display x := by
  have h : ∀ (l : List StackElem) (k : Nat), ((l.map fun s => { s with name := { s.name with ns := u } }).zipIdx k).reverse.flatMap (fun y => stackLine y.2 y.1) =
      (l.zipIdx k).reverse.flatMap fun y => stackLine y.2 y.1 := by
    intro l k
    rw [List.zipIdx_map, ← List.map_reverse, List.flatMap_map]
    rfl
  have e : (a.stack.map fun s => ({ s with name := { s.name with ns := u } } : StackElem)).isEmpty = a.stack.isEmpty := by cases a.stack <;> rfl
  simp only [Error.display, h, e]

end SX
