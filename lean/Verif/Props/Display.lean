import Verif.Model.Display
import Verif.Spec.Display
import Verif.Proof.Text
import Verif.Props.Names
import Verif.Props.Text

/-
C39: the displayed form of errors.
-/
namespace SX
open Spec

theorem hexDigit_spec (n : Nat) (h : n < 16) :
    (if n < 10 then Char.ofNat (48 + n) else Char.ofNat (87 + n)) ∈ hexChars ∧
    hexChars.idxOf (if n < 10 then Char.ofNat (48 + n) else Char.ofNat (87 + n)) = n ∧
    ((if n < 10 then Char.ofNat (48 + n) else Char.ofNat (87 + n)) = '0' ↔ n = 0) := by
  have : n = 0 ∨ n = 1 ∨ n = 2 ∨ n = 3 ∨ n = 4 ∨ n = 5 ∨ n = 6 ∨ n = 7 ∨ n = 8 ∨ n = 9 ∨ n = 10 ∨ n = 11 ∨ n = 12 ∨ n = 13 ∨ n = 14 ∨ n = 15 := by
    omega
  rcases this with rfl | rfl | rfl | rfl | rfl | rfl | rfl | rfl | rfl | rfl | rfl | rfl | rfl | rfl | rfl | rfl <;> decide

theorem hexDigits_spec (n : Nat) : IsHex n (hexDigits n) ∧ (0 < n → (hexDigits n).head? ≠ some '0') := by
  induction n using Nat.strongRecOn with
  | ind n ih =>
    unfold hexDigits
    split
    · rename_i h
      obtain ⟨h1, h2, h3⟩ := hexDigit_spec n h
      refine ⟨⟨by simp, by simpa using h1, by simp [hexValue, h2], ?_⟩, ?_⟩
      · intro h; simpa using h
      · intro hn h
        simp only [List.head?_cons, Option.some.injEq] at h
        have := h3.mp h
        omega
    · rename_i h
      obtain ⟨i1, i2⟩ := ih (n / 16) (by omega)
      obtain ⟨h1, h2, h3⟩ := hexDigit_spec (n % 16) (by omega)
      have i2 := i2 (by omega)
      have hh : (hexDigits (n / 16) ++ [if n % 16 < 10 then Char.ofNat (48 + n % 16) else Char.ofNat (87 + n % 16)]).head? ≠ some '0' := by
        cases hd : hexDigits (n / 16) with
        | nil => exact absurd hd i1.nonempty
        | cons c l => rw [hd] at i2; simpa using i2
      refine ⟨⟨by simp, ?_, ?_, fun h => absurd h hh⟩, fun _ => hh⟩
      · intro c hc
        rcases List.mem_append.mp hc with hc | hc
        · exact i1.digits c hc
        · rw [List.mem_singleton.mp hc]; exact h1
      · have hv := i1.value
        unfold hexValue at hv ⊢
        rw [List.foldl_append, hv]
        simp only [List.foldl_cons, List.foldl_nil, h2]
        omega

theorem natDigits_isDec (n : Nat) : IsDec n (natDigits n) := by
  obtain ⟨h1, h2, h3⟩ := natDigits_spec n
  exact ⟨h1, h2, h3⟩

theorem pos_display (p : Pos) : PosText p p.display := ⟨_, _, rfl, natDigits_isDec _, natDigits_isDec _⟩

theorem stackLine_spec (i : Nat) (e : StackElem) : ∃ l, stackLine i e = l ++ ['\n'] ∧ StackText i e l := by
  refine ⟨_, rfl, 4 - (hexDigits i).length, hexDigits i, e.name.repr, e.pos.display, rfl, (hexDigits_spec i).1, by omega, ?_, pos_display _⟩
  unfold QName.repr TagText
  split
  · rename_i p hp
    exact .inr ⟨p, hp, by simp⟩
  · rename_i hp
    exact .inl ⟨hp, rfl⟩

/-- C39: the message is the cause, the position, and one line for each element of the stack, innermost first, with its depth. -/
theorem C39_display (x : Ext) (e : Error) :
    ∃ (pos : List Char) (lines : List (List Char)), PosText e.pos pos ∧ lines.length = e.stack.length ∧
      (∀ d s, e.stack[d]? = some s → ∃ l, lines[e.stack.length - 1 - d]? = some l ∧ StackText d s l) ∧
      e.display x = (e.kind.display x).toList ++ " @ ".toList ++ pos ++
        (if e.stack = [] then [] else "\n\nXML element stack:\n".toList ++ lines.flatMap (· ++ ['\n'])) := by
  have key : ∀ (l : List (StackElem × Nat)), ∃ lines : List (List Char), lines.length = l.length ∧
      (l.flatMap fun y => stackLine y.2 y.1) = lines.flatMap (· ++ ['\n']) ∧
      ∀ (k : Nat) y, l[k]? = some y → ∃ t, lines[k]? = some t ∧ StackText y.2 y.1 t := by
    intro l
    induction l with
    | nil => exact ⟨[], rfl, rfl, by simp⟩
    | cons y l ih =>
      obtain ⟨lines, h1, h2, h3⟩ := ih
      obtain ⟨t, ht, hs⟩ := stackLine_spec y.2 y.1
      refine ⟨t :: lines, by simp [h1], by simp only [List.flatMap_cons, h2, ht], ?_⟩
      intro k z hz
      cases k with
      | zero => simp at hz; subst hz; exact ⟨t, rfl, hs⟩
      | succ k => simpa using h3 k z (by simpa using hz)
  obtain ⟨lines, h1, h2, h3⟩ := key e.stack.zipIdx.reverse
  simp only [List.length_reverse, List.length_zipIdx] at h1
  refine ⟨e.pos.display, lines, pos_display _, h1, ?_, ?_⟩
  · intro d s hs
    have hd : d < e.stack.length := by
      rcases Nat.lt_or_ge d e.stack.length with h | h
      · exact h
      · rw [List.getElem?_eq_none h] at hs; cases hs
    have := h3 (e.stack.length - 1 - d) (s, d) (by
      rw [List.getElem?_reverse (by simp only [List.length_zipIdx]; omega), List.length_zipIdx]
      have : e.stack.length - 1 - (e.stack.length - 1 - d) = d := by omega
      rw [this, List.getElem?_zipIdx, hs]
      simp)
    exact this
  · unfold Error.display
    rw [h2]
    cases e.stack <;> rfl

theorem no_newline_digits {n : Nat} {ds : List Char} (h : IsDec n ds) : '\n' ∉ ds := by
  intro hm
  have := h.digits _ hm
  simp [isDecDigit] at this

/-- C39: the line for an element is one line. -/
theorem C39_one_line (d : Nat) (s : StackElem) (l : List Char) (h : StackText d s l) (hn : OneLine s.name) : '\n' ∉ l := by
  obtain ⟨k, num, tag, pos, rfl, hx, _, ht, a, b, rfl, ha, hb⟩ := h
  have h1 : '\n' ∉ num := fun hm => absurd (hx.digits _ hm) (by decide)
  have h2 : '\n' ∉ tag := by
    rcases ht with ⟨_, rfl⟩ | ⟨p, hp, rfl⟩
    · exact hn.1
    · simp [hn.1, hn.2 p hp]
  have h3 := no_newline_digits ha
  have h4 := no_newline_digits hb
  simp [h1, h2, h3, h4, List.mem_replicate]

theorem displayAll_eq (x : Ext) (es : List TErr) :
    (TErr.displayAll x es).toList = es.flatMap fun e => ['\n', '*', ' '] ++ (e.display x).toList := by
  induction es with
  | nil => simp [TErr.displayAll]
  | cons e es ih => simp [TErr.displayAll, ih]

/-- C39: if all variants of a union reject a text, the message has one item for each variant in order, which is what that variant says
about the (normalized) text. -/
theorem C39_union_items (x : Ext) (name : String) (ws : WhiteSpace) (vs : List TextTy) (text : String) (e : TErr)
    (h : (TextTy.union name ws vs).parse text = .err e) :
    ∃ items : List String, items.length = vs.length ∧
      (∀ (i : Nat) t, vs[i]? = some t → ∃ e', t.parse (normText ws text) = .err e' ∧ items[i]? = some (e'.display x)) ∧
      (e.display x).toList = ("all " ++ name ++ " union variants failed to parse:").toList ++
        items.flatMap fun m => ['\n', '*', ' '] ++ m.toList := by
  obtain ⟨es, rfl, he⟩ := (C07_union_reject name ws vs text e).mp h
  refine ⟨es.map fun e => e.display x, ?_, ?_, ?_⟩
  · have := congrArg List.length he
    simpa using this.symm
  · intro i t ht
    have := congrArg (fun l => l[i]?) he
    simp only [List.getElem?_map, ht, Option.map_some] at this
    cases hi : es[i]? with
    | none => rw [hi] at this; simp at this
    | some e' =>
      rw [hi] at this
      simp only [Option.map_some, Option.some.injEq] at this
      exact ⟨e', this, by simp [hi]⟩
  · simp only [TErr.display, String.toList_append, displayAll_eq, List.flatMap_map]

/-- `x` is neither a `bool` nor an integer. -/
example : ∃ e, (TextTy.union "U" .preserve [.bool, .int ⟨true, 8⟩]).parse "x" = .err e ∧
    e.display { debug := fun s => s, std := "invalid digit", event := "" } =
      "all U union variants failed to parse:\n* invalid bool x\n* invalid digit" := ⟨_, rfl, by decide⟩

/-- The example of the documentation (`de/mod.rs:139-147`), in part. -/
def exError : Error where
  kind := .deserializer (.text .std)
  stack := [{ name := { loc := "UTCDateTime", ns := some "urn:tt", pfx := some "tt" }, pos := ⟨11, 16⟩ },
    { name := { loc := "Hour", ns := none, pfx := none }, pos := ⟨13, 24⟩ }]
  pos := ⟨13, 24⟩

attribute [local semireducible] natDigits hexDigits in
example : exError.display { debug := id, std := "invalid digit found in string", event := "" } =
    "invalid digit found in string @ 14:25\n\nXML element stack:\n   1: <Hour> @ 14:25\n   0: <tt:UTCDateTime> @ 12:17\n".toList := by
  decide

example : ∀ s ∈ exError.stack, OneLine s.name := by
  simp [exError, OneLine]

/-! ### Causes -/

/-- The text up to the first space, and what follows. -/
theorem space_split {a b u v : List Char} (ha : ' ' ∉ a) (hb : ' ' ∉ b) (h : a ++ ' ' :: u = b ++ ' ' :: v) : a = b ∧ u = v := by
  induction a generalizing b with
  | nil =>
    cases b with
    | nil => simpa using h
    | cons c b => simp at h hb; exact absurd h.1 hb.1
  | cons c a ih =>
    cases b with
    | nil => simp at h ha; exact absurd h.1.symm ha.1
    | cons d b =>
      simp only [List.cons_append, List.cons.injEq, List.mem_cons, not_or] at h ha hb
      obtain ⟨h1, h2⟩ := ih ha.2 hb.2 h.2
      exact ⟨by rw [h.1, h1], h2⟩

theorem display_no_space {n : EName} (h : NoSpaces n) : ' ' ∉ n.display.toList := by
  unfold EName.display
  split
  · exact h.2
  · simp [h.1, h.2]

/-- The errors of derived deserializers, about names that can be shown. -/
def Spec.Plain : DErr → Prop
  | .missingElement n | .missingAttribute n | .duplicateAttribute n | .duplicateElement n => NoSpaces n ∧ NoBraces n.ns ∧ NoBraces n.loc
  | .unexpectedElement n m => (NoSpaces n ∧ NoBraces n.ns ∧ NoBraces n.loc) ∧ NoSpaces m ∧ NoBraces m.ns ∧ NoBraces m.loc
  | .cantBeEmpty ty => ' ' ∉ ty.toList
  | _ => False

/-- Words with spaces between them. -/
def joinWords : List String → List Char
  | [] => []
  | [w] => w.toList
  | w :: ws => w.toList ++ ' ' :: joinWords ws

theorem joinWords_injective (a b : List String) (ha : ∀ w ∈ a, ' ' ∉ w.toList) (hb : ∀ w ∈ b, ' ' ∉ w.toList) (hna : a ≠ []) (hnb : b ≠ [])
    (h : joinWords a = joinWords b) : a = b := by
  induction a generalizing b with
  | nil => exact absurd rfl hna
  | cons v a ih =>
    cases b with
    | nil => exact absurd rfl hnb
    | cons w b =>
      have hv := ha v (by simp)
      have hw := hb w (by simp)
      cases a with
      | nil =>
        cases b with
        | nil => simp only [joinWords] at h; rw [String.toList_inj.mp h]
        | cons w' b =>
          simp only [joinWords] at h
          rw [h] at hv
          simp at hv
      | cons v' a =>
        cases b with
        | nil =>
          simp only [joinWords] at h
          rw [← h] at hw
          simp at hw
        | cons w' b =>
          simp only [joinWords] at h
          obtain ⟨h1, h2⟩ := space_split hv hw h
          rw [ih (w' :: b) (fun x hx => ha x (by simp [hx])) (fun x hx => hb x (by simp [hx])) (by simp) (by simp) h2, String.toList_inj.mp h1]

/-- The words of a cause. -/
def causeWords : DErr → List String
  | .missingElement n => ["Missing", "expected", "element", n.display]
  | .missingAttribute n => ["Missing", "expected", "attribute", n.display]
  | .duplicateAttribute n => ["Duplicate", "attribute", n.display]
  | .duplicateElement n => ["Duplicate", "element", n.display]
  | .unexpectedElement n m => ["Got", "unexpected", "element", n.display, "after", m.display]
  | .cantBeEmpty ty => [ty, "can't", "be", "empty"]
  | _ => []

theorem causeWords_spec (x : Ext) (a : DErr) (h : Plain a) :
    (a.display x).toList = joinWords (causeWords a) ∧ (∀ w ∈ causeWords a, ' ' ∉ w.toList) ∧ causeWords a ≠ [] := by
  have no : ∀ {l m : List String}, (∀ w ∈ l, ' ' ∉ w.toList) → (∀ w ∈ m, ' ' ∉ w.toList) → ∀ w ∈ l ++ m, ' ' ∉ w.toList := by
    intro l m h1 h2 w hw
    rcases List.mem_append.mp hw with hw | hw
    · exact h1 w hw
    · exact h2 w hw
  have name : ∀ {n : EName}, NoSpaces n → ∀ w ∈ [n.display], ' ' ∉ w.toList := by
    intro n hn w hw
    rw [List.mem_singleton.mp hw]
    exact display_no_space hn
  cases a with
  | missingElement n =>
    have e : causeWords (.missingElement n) = ["Missing", "expected", "element"] ++ [n.display] := by simp [causeWords]
    have h1 : "Missing expected element ".toList = "Missing".toList ++ ' ' :: ("expected".toList ++ ' ' :: ("element".toList ++ [' '])) := by simp
    rw [e]
    refine ⟨?_, no (by simp) (name h.1), by simp⟩
    unfold DErr.display; simp only [List.cons_append, List.nil_append, joinWords, String.toList_append]
    rw [h1]
    simp only [List.append_assoc, List.cons_append, List.nil_append]
  | missingAttribute n =>
    have e : causeWords (.missingAttribute n) = ["Missing", "expected", "attribute"] ++ [n.display] := by simp [causeWords]
    have h1 : "Missing expected attribute ".toList = "Missing".toList ++ ' ' :: ("expected".toList ++ ' ' :: ("attribute".toList ++ [' '])) := by simp
    rw [e]
    refine ⟨?_, no (by simp) (name h.1), by simp⟩
    unfold DErr.display; simp only [List.cons_append, List.nil_append, joinWords, String.toList_append]
    rw [h1]
    simp only [List.append_assoc, List.cons_append, List.nil_append]
  | duplicateAttribute n =>
    have e : causeWords (.duplicateAttribute n) = ["Duplicate", "attribute"] ++ [n.display] := by simp [causeWords]
    have h1 : "Duplicate attribute ".toList = "Duplicate".toList ++ ' ' :: ("attribute".toList ++ [' ']) := by simp
    rw [e]
    refine ⟨?_, no (by simp) (name h.1), by simp⟩
    unfold DErr.display; simp only [List.cons_append, List.nil_append, joinWords, String.toList_append]
    rw [h1]
    simp only [List.append_assoc, List.cons_append, List.nil_append]
  | duplicateElement n =>
    have e : causeWords (.duplicateElement n) = ["Duplicate", "element"] ++ [n.display] := by simp [causeWords]
    have h1 : "Duplicate element ".toList = "Duplicate".toList ++ ' ' :: ("element".toList ++ [' ']) := by simp
    rw [e]
    refine ⟨?_, no (by simp) (name h.1), by simp⟩
    unfold DErr.display; simp only [List.cons_append, List.nil_append, joinWords, String.toList_append]
    rw [h1]
    simp only [List.append_assoc, List.cons_append, List.nil_append]
  | unexpectedElement n m =>
    have e : causeWords (.unexpectedElement n m) = ["Got", "unexpected", "element"] ++ ([n.display] ++ (["after"] ++ [m.display])) := by
      simp [causeWords]
    have h1 : "Got unexpected element ".toList = "Got".toList ++ ' ' :: ("unexpected".toList ++ ' ' :: ("element".toList ++ [' '])) := by simp
    have h2 : " after ".toList = ' ' :: ("after".toList ++ [' ']) := by simp
    rw [e]
    refine ⟨?_, no (by simp) (no (name h.1.1) (no (by simp) (name h.2.1))), by simp⟩
    unfold DErr.display; simp only [List.cons_append, List.nil_append, joinWords, String.toList_append]
    rw [h1, h2]
    simp only [List.append_assoc, List.cons_append, List.nil_append]
  | cantBeEmpty ty =>
    have e : causeWords (.cantBeEmpty ty) = [ty] ++ ["can't", "be", "empty"] := by simp [causeWords]
    have h1 : " can't be empty".toList = ' ' :: ("can't".toList ++ ' ' :: ("be".toList ++ ' ' :: "empty".toList)) := by simp
    rw [e]
    refine ⟨?_, no ?_ (by simp), by simp⟩
    · unfold DErr.display; simp only [List.cons_append, List.nil_append, joinWords, String.toList_append]
      rw [h1]
    · intro w hw
      rw [List.mem_singleton.mp hw]
      exact h
  | text e => exact h.elim
  | user m => exact h.elim

/-- C39, C38: from the cause, as it is shown, one can tell what went wrong with which element or attribute. -/
theorem C39_cause_injective (x : Ext) (a b : DErr) (ha : Plain a) (hb : Plain b) (h : a.display x = b.display x) : a = b := by
  obtain ⟨a1, a2, a3⟩ := causeWords_spec x a ha
  obtain ⟨b1, b2, b3⟩ := causeWords_spec x b hb
  have hw := joinWords_injective _ _ a2 b2 a3 b3 (by rw [← a1, ← b1, h])
  cases a <;> simp only [Plain] at ha <;> (try exact ha.elim) <;> cases b <;> simp only [Plain] at hb <;> (try exact hb.elim) <;>
    simp [causeWords] at hw
  · rw [C38_display_injective _ _ ha.2 hb.2 hw]
  · rw [C38_display_injective _ _ ha.2 hb.2 hw]
  · rw [C38_display_injective _ _ ha.2 hb.2 hw]
  · rw [C38_display_injective _ _ ha.2 hb.2 hw]
  · rw [C38_display_injective _ _ ha.1.2 hb.1.2 hw.1, C38_display_injective _ _ ha.2.2 hb.2.2 hw.2]
  · rw [hw]

example : Plain (.unexpectedElement ⟨"urn:a", "x"⟩ ⟨"", "y"⟩) ∧
    (DErr.unexpectedElement ⟨"urn:a", "x"⟩ ⟨"", "y"⟩).display { debug := id, std := "", event := "" } = "Got unexpected element {urn:a}x after y" := by
  refine ⟨?_, by decide⟩
  refine ⟨⟨⟨by decide, by decide⟩, ?_, ?_⟩, ⟨by decide, by decide⟩, ?_, ?_⟩ <;> (intro c; revert c; decide)

/-- The same complaint of the reader, up to what a tag's name looks like. -/
def Spec.SameMsg : Msg → Msg → Prop
  | .expectedStartDocument, .expectedStartDocument => True
  | .expectedStartElement, .expectedStartElement => True
  | .expectedEndDocument, .expectedEndDocument => True
  | .elementInString m, .elementInString n => m.display = n.display
  | _, _ => False

/-- Three letters tell messages apart. -/
def msgTag : Msg → List (Option Char)
  | .expectedStartDocument => [some 'e', some 'S', some 'D']
  | .expectedStartElement => [some 'e', some 'S', some 'E']
  | .expectedEndDocument => [some 'e', some 'E', some 'c']
  | .elementInString _ => [some 'U', some 'd', some 'm']

theorem msgTag_spec (x : Ext) (a : Msg) : msgTag a = [(a.display x).toList[0]?, (a.display x).toList[9]?, (a.display x).toList[14]?] := by
  cases a with
  | _ =>
    unfold Msg.display
    simp only [String.toList_append, List.append_assoc]
    rw [List.getElem?_append_left (by decide), List.getElem?_append_left (by decide), List.getElem?_append_left (by decide)]
    simp only [msgTag]
    decide

/-- C39: a message of the reader itself tells what was expected, whatever came instead. -/
theorem C39_reader_tells (x y : Ext) (a b : Msg) (h : a.display x = b.display y) : SameMsg a b := by
  have ht : msgTag a = msgTag b := by rw [msgTag_spec x, msgTag_spec y, h]
  cases a <;> cases b <;> simp [msgTag] at ht <;> simp only [SameMsg]
  have h := congrArg String.toList h
  unfold Msg.display at h
  simp only [String.toList_append] at h
  generalize "Unexpected element ".toList = l1, " in string".toList = l2 at h
  rw [List.append_assoc, List.append_assoc] at h
  exact String.toList_inj.mp (List.append_cancel_right (List.append_cancel_left h))

example : (Msg.elementInString { loc := "b", ns := some "urn:a", pfx := some "p" }).display { debug := id, std := "", event := "" } =
    "Unexpected element {urn:a}p:b in string" := by decide

/-- The same complaint about a text, without the complaints of the variants of a union. -/
def Spec.SameText : TErr → TErr → Prop
  | .invalidBool s, .invalidBool t => s = t
  | .noSuchVariant d s, .noSuchVariant e t => d = e ∧ s = t
  | .union m _, .union n _ => m = n
  | _, _ => False

/-- Errors made by the crate, about types without spaces in their names. -/
def Spec.Own : TErr → Prop
  | .invalidBool _ => True
  | .noSuchVariant e _ => ' ' ∉ e.toList
  | .union n _ => ' ' ∉ n.toList
  | .std => False

/-- The first letter tells errors apart. -/
def textTag : TErr → Option Char
  | .invalidBool _ => some 'i'
  | .noSuchVariant _ _ => some 'n'
  | .union _ _ => some 'a'
  | .std => none

theorem textTag_spec (x : Ext) (a : TErr) (h : Own a) : textTag a = (a.display x).toList[0]? := by
  cases a with
  | std => exact h.elim
  | _ =>
    simp only [TErr.display]
    simp only [String.toList_append, List.append_assoc]
    rw [List.getElem?_append_left (by decide)]
    simp only [textTag]
    decide

/-- C39: the message about a text tells the type and the text, if different strings are quoted differently. -/
theorem C39_text_tells (x : Ext) (hx : ∀ s t, x.debug s = x.debug t → s = t) (a b : TErr) (ha : Own a) (hb : Own b)
    (h : a.display x = b.display x) : SameText a b := by
  have ht : textTag a = textTag b := by rw [textTag_spec x a ha, textTag_spec x b hb, h]
  have h := congrArg String.toList h
  cases a <;> cases b <;> simp [textTag] at ht <;> simp only [SameText]
  · simp only [TErr.display, String.toList_append] at h
    exact hx _ _ (String.toList_inj.mp (List.append_cancel_left h))
  · exact ha.elim
  · simp only [TErr.display, String.toList_append] at h
    rw [show " variant ".toList = ' ' :: "variant ".toList from by decide] at h
    generalize "no such ".toList = l1, "variant ".toList = l2 at h
    simp only [List.append_assoc, List.cons_append] at h
    obtain ⟨h1, h2⟩ := space_split ha hb (List.append_cancel_left h)
    exact ⟨String.toList_inj.mp h1, hx _ _ (String.toList_inj.mp (List.append_cancel_left h2))⟩
  · simp only [TErr.display, String.toList_append] at h
    rw [show " union variants failed to parse:".toList = ' ' :: "union variants failed to parse:".toList from by decide] at h
    generalize "all ".toList = l1, "union variants failed to parse:".toList = l2 at h
    simp only [List.append_assoc, List.cons_append] at h
    exact String.toList_inj.mp (space_split ha hb (List.append_cancel_left h)).1

example : Own (.noSuchVariant "Color" "grey") ∧ (TErr.noSuchVariant "Color" "grey").display { debug := fun s => "'" ++ s ++ "'", std := "", event := "" } =
    "no such Color variant 'grey'" := ⟨by simp [Own], by decide⟩

end SX
