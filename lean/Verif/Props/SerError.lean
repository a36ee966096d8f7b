import Verif.Model.SerError
import Verif.Spec.Display
import Verif.Props.Names
import Verif.Props.Writer

/-
C55: what the messages of `ser::Error` tell.
-/
namespace SX
open Spec

/-- What is needed of std's `{:?}` for strings: where the quoted string ends and what it was can be told from the text. -/
def Spec.PrefixFree (f : String → String) : Prop :=
  ∀ s t u v, (f s).toList ++ u = (f t).toList ++ v → s = t ∧ u = v

/-- The names in a cause can be shown. -/
def Spec.Shown : SerCause → Prop
  | .duplicateElement n | .missingAttribute n | .missingElement n => NoBraces n.ns ∧ NoBraces n.loc
  | _ => True

namespace ExSE

/-- A simple way of quoting. -/
def escape : List Char → List Char
  | [] => ['"']
  | c :: l => if c = '"' ∨ c = '\\' then '\\' :: c :: escape l else c :: escape l

def quote (s : String) : String := String.ofList ('"' :: escape s.toList)

theorem escape_prefixFree (s t u v : List Char) (h : escape s ++ u = escape t ++ v) : s = t ∧ u = v := by
  induction s generalizing t with
  | nil =>
    cases t with
    | nil => simpa [escape] using h
    | cons d t =>
      simp only [escape] at h
      split at h
      · simp at h
      · rename_i hd
        simp only [List.cons_append, List.nil_append, List.cons.injEq] at h
        exact absurd (.inl h.1.symm) hd
  | cons c s ih =>
    cases t with
    | nil =>
      simp only [escape] at h
      split at h
      · simp at h
      · rename_i hd
        simp only [List.cons_append, List.nil_append, List.cons.injEq] at h
        exact absurd (.inl h.1) hd
    | cons d t =>
      simp only [escape] at h
      split at h <;> split at h <;> rename_i hc hd
      · simp only [List.cons_append, List.cons.injEq, true_and] at h
        obtain ⟨h1, h2⟩ := ih t h.2
        exact ⟨by rw [h.1, h1], h2⟩
      · simp only [List.cons_append, List.cons.injEq] at h
        exact absurd (.inr h.1.symm) hd
      · simp only [List.cons_append, List.cons.injEq] at h
        exact absurd (.inr h.1) hc
      · simp only [List.cons_append, List.cons.injEq] at h
        obtain ⟨h1, h2⟩ := ih t h.2
        exact ⟨by rw [h.1, h1], h2⟩

theorem quote_prefixFree : PrefixFree quote := by
  intro s t u v h
  simp only [quote, String.toList_ofList, List.cons_append, List.cons.injEq, true_and] at h
  obtain ⟨h1, h2⟩ := escape_prefixFree _ _ _ _ h
  exact ⟨String.toList_inj.mp h1, h2⟩

def x : Ext where
  debug := quote
  std := ""
  event := ""

end ExSE

theorem debug_prefixFree {x : Ext} (hx : PrefixFree x.debug) (m n : EName) (u v : List Char)
    (h : (m.debug x).toList ++ u = (n.debug x).toList ++ v) : m = n ∧ u = v := by
  unfold EName.debug at h
  rw [String.toList_append, String.toList_append, String.toList_append, String.toList_append, String.toList_append, String.toList_append,
    String.toList_append, String.toList_append] at h
  generalize "ExpandedNameRef { namespace: ".toList = l1, ", local_name: ".toList = l2, " }".toList = l3 at h
  simp only [List.append_assoc, List.append_cancel_left_eq] at h
  obtain ⟨h1, h⟩ := hx _ _ _ _ h
  obtain ⟨h2, h'⟩ := hx _ _ _ _ (List.append_cancel_left h)
  cases m; cases n
  simp only at h1 h2
  exact ⟨by rw [h1, h2], List.append_cancel_left h'⟩

/-- The initial letter, and the eighteenth or eighth, tell causes apart. -/
def causeTag : SerCause → Option Char × Option Char
  | .duplicateElement _ => (some 'd', none)
  | .missingAttribute _ => (some 'm', some 'a')
  | .missingElement _ => (some 'm', some 'e')
  | .missingText => (some 'm', some 't')
  | .duplicateMapping _ _ _ => (some 'P', none)
  | .duplicateAttribute _ _ _ => (some 'A', none)
  | .builderDropped => (some 'E', some 'B')
  | .writerDropped => (some 'E', some 'W')

theorem causeTag_spec (x : Ext) (a : SerCause) :
    causeTag a = ((a.message x).toList[0]?, if (a.message x).toList[0]? = some 'm' then (a.message x).toList[17]?
      else if (a.message x).toList[0]? = some 'E' then (a.message x).toList[7]? else none) := by
  cases a with
  | missingText => exact (by decide : causeTag .missingText = ((SerCause.message ExSE.x .missingText).toList[0]?, if (SerCause.message ExSE.x .missingText).toList[0]? = some 'm' then (SerCause.message ExSE.x .missingText).toList[17]?
      else if (SerCause.message ExSE.x .missingText).toList[0]? = some 'E' then (SerCause.message ExSE.x .missingText).toList[7]? else none))
  | builderDropped => exact (by decide : causeTag .builderDropped = ((SerCause.message ExSE.x .builderDropped).toList[0]?, if (SerCause.message ExSE.x .builderDropped).toList[0]? = some 'm' then (SerCause.message ExSE.x .builderDropped).toList[17]?
      else if (SerCause.message ExSE.x .builderDropped).toList[0]? = some 'E' then (SerCause.message ExSE.x .builderDropped).toList[7]? else none))
  | writerDropped => exact (by decide : causeTag .writerDropped = ((SerCause.message ExSE.x .writerDropped).toList[0]?, if (SerCause.message ExSE.x .writerDropped).toList[0]? = some 'm' then (SerCause.message ExSE.x .writerDropped).toList[17]?
      else if (SerCause.message ExSE.x .writerDropped).toList[0]? = some 'E' then (SerCause.message ExSE.x .writerDropped).toList[7]? else none))
  | _ =>
    unfold SerCause.message
    simp only [String.toList_append, List.append_assoc]
    rw [List.getElem?_append_left (by decide)]
    try rw [List.getElem?_append_left (by decide)]
    rfl

/-- C55: from the message of an error one can tell what went wrong, and with which names and values. -/
theorem C55_injective (x : Ext) (hx : PrefixFree x.debug) (a b : SerCause) (ha : Shown a) (hb : Shown b) (h : a.message x = b.message x) :
    a = b := by
  have ht : causeTag a = causeTag b := by rw [causeTag_spec x, causeTag_spec x, h]
  have h := congrArg String.toList h
  cases a <;> cases b <;> simp only [causeTag, Prod.mk.injEq, reduceCtorEq, and_false, Option.some.injEq, Char.reduceEq, and_true] at ht
  · unfold SerCause.message at h
    rw [String.toList_append, String.toList_append] at h
    rw [C38_display_injective _ _ ha hb (String.toList_inj.mp (List.append_cancel_left h))]
  · unfold SerCause.message at h
    rw [String.toList_append, String.toList_append] at h
    rw [C38_display_injective _ _ ha hb (String.toList_inj.mp (List.append_cancel_left h))]
  · unfold SerCause.message at h
    rw [String.toList_append, String.toList_append] at h
    rw [C38_display_injective _ _ ha hb (String.toList_inj.mp (List.append_cancel_left h))]
  · rfl
  · unfold SerCause.message at h
    simp only [String.toList_append] at h
    generalize "Prefix ".toList = l1, " is already mapped to ".toList = l2, ", so can't map to ".toList = l3 at h
    simp only [List.append_assoc, List.append_cancel_left_eq] at h
    obtain ⟨h1, h⟩ := hx _ _ _ _ h
    obtain ⟨h2, h⟩ := hx _ _ _ _ (List.append_cancel_left h)
    obtain ⟨h3, -⟩ := hx _ _ [] [] (by simpa using List.append_cancel_left h)
    rw [h1, h2, h3]
  · unfold SerCause.message at h
    simp only [String.toList_append] at h
    generalize "Attribute ".toList = l1, " already has value ".toList = l2, ", so can't set value ".toList = l3 at h
    simp only [List.append_assoc, List.append_cancel_left_eq] at h
    obtain ⟨h1, h⟩ := debug_prefixFree hx _ _ _ _ h
    obtain ⟨h2, h⟩ := hx _ _ _ _ (List.append_cancel_left h)
    obtain ⟨h3, -⟩ := hx _ _ [] [] (by simpa using List.append_cancel_left h)
    rw [h1, h2, h3]
  · rfl
  · rfl

example : PrefixFree ExSE.x.debug ∧ Shown (.missingElement ⟨"urn:a", "b"⟩) ∧ Shown (.duplicateMapping "p" "a\"b" "c") ∧
    (SerCause.missingElement ⟨"urn:a", "b"⟩).message ExSE.x = "missing expected element {urn:a}b" ∧
    (SerCause.duplicateMapping "p" "a\"b" "c").message ExSE.x = "Prefix \"p\" is already mapped to \"a\\\"b\", so can't map to \"c\"" := by
  refine ⟨ExSE.quote_prefixFree, ⟨?_, ?_⟩, trivial, by decide, by decide⟩ <;> (intro c; revert c; decide)

/-- C55: the error for an attribute that is already there names it, the value it keeps and the value that was refused. -/
theorem C55_attribute {b b' : Builder} {n : EName} {v : String} {e : SErr} (x : Ext) (h : b.attribute n v = .ok (b', .error e)) :
    ∃ old, (n, old) ∈ b'.attrs ∧ b' = b ∧ e.message x = "Attribute " ++ ("ExpandedNameRef { namespace: " ++ x.debug n.ns ++ ", local_name: " ++
      x.debug n.loc ++ " }") ++ " already has value " ++ x.debug old ++ ", so can't set value " ++ x.debug v := by
  unfold Builder.attribute at h
  split at h
  · split at h
    · exact nomatch h
    · rename_i old ho
      simp only [Except.ok.injEq, Prod.mk.injEq, Except.error.injEq] at h
      obtain ⟨rfl, rfl⟩ := h
      have h1 := List.find?_some ho
      have h2 := List.mem_of_find?_eq_some ho
      simp only [beq_iff_eq] at h1
      refine ⟨old.2, ?_, rfl, rfl⟩
      rw [← h1]
      exact h2
  · simp at h

example : ∃ b e, (Builder.new (ExW.n "" "r") []).attribute (ExW.n "" "a") "1" = .ok (b, .ok ()) ∧
    b.attribute (ExW.n "" "a") "2" = .ok (b, .error e) := ⟨_, _, rfl, rfl⟩

/-- C55: when the sink refuses what is written, the message of the error is the one the sink gave, and so it is of every later one. -/
theorem C55_write (x : Ext) {sink : Sink} {s : WState} (h : s.poison = none) {ev : WEvent} {a : Option (EName × List (EName × String))}
    {m : String} (hm : sink s.out ev = some m) :
    ∃ s' e, s.write sink ev a = (s', .error e) ∧ e.message x = m ∧
      ∀ ev' a', ∃ s'' e', s'.write sink ev' a' = (s'', .error e') ∧ e'.message x = m := by
  obtain ⟨s', h1, -, h3⟩ := C26_first_error sink s h ev a m hm
  refine ⟨s', _, h1, rfl, fun ev' a' => ?_⟩
  have := write_poisoned (sink := sink) (e := ev') (a := a') h3
  exact ⟨_, _, Prod.ext rfl this.2, rfl⟩

example : ExW.noText [] (.chars "t") = some "disk full" := rfl

/-- What `e` tells after a handle was dropped in state `s`: the first error, and if there was none that the handle was dropped. -/
def Spec.TellsDrop (x : Ext) (s : WState) (what : String) (e : SErr) : Prop :=
  (s.poison = none → e.message x = what) ∧ ∀ e₀, s.poison = some e₀ → e.message x = e₀.message x

theorem poisonWith_tells (x : Ext) (s : WState) (e : SErr) (sink : Sink) (ev : WEvent) (a : Option (EName × List (EName × String))) :
    ∃ s'' e', (s.poisonWith e).write sink ev a = (s'', .error e') ∧ TellsDrop x s (e.message x) e' := by
  cases hp : s.poison with
  | none =>
    have : (s.poisonWith e).poison = some e := by simp [WState.poisonWith, hp]
    refine ⟨((s.poisonWith e).write sink ev a).1, e, Prod.ext rfl (write_poisoned (sink := sink) (e := ev) (a := a) this).2, fun _ => rfl, fun e₀ h => ?_⟩
    rw [hp] at h
    cases h
  | some e₀ =>
    have : (s.poisonWith e).poison = some e₀ := by simp [WState.poisonWith, hp]
    refine ⟨((s.poisonWith e).write sink ev a).1, e₀, Prod.ext rfl (write_poisoned (sink := sink) (e := ev) (a := a) this).2, fun h => ?_, fun e₁ h => ?_⟩
    · rw [hp] at h
      cases h
    · rw [hp] at h
      cases h
      rfl

/-- C55: when a builder is dropped without starting its element, whatever is written later fails and the message tells so, unless something
went wrong before; nothing is written. -/
theorem C55_builder_dropped (x : Ext) (dbg : Bool) (sink : Sink) {hs : List Handle} (k : Prog hs) (b : HState .builder) (rest : HStates hs)
    (s : WState) : ∃ s', (Prog.dropBuilder k).run dbg sink (.cons b rest) s = k.run dbg sink rest s' ∧ s'.out = s.out ∧
      ∀ ev a, ∃ s'' e, s'.write sink ev a = (s'', .error e) ∧ TellsDrop x s "ElementBuilder dropped before start" e :=
  ⟨s.poisonWith .builderDropped, rfl, rfl, fun ev a => poisonWith_tells x s .builderDropped sink ev a⟩

/-- C55: the same for writers. -/
theorem C55_writer_dropped (x : Ext) (dbg : Bool) (sink : Sink) {hs : List Handle} (k : Prog hs) (n : HState (.writer true)) (rest : HStates hs)
    (s : WState) : ∃ s', (Prog.dropWriter k).run dbg sink (.cons n rest) s = k.run dbg sink rest s' ∧ s'.out = s.out ∧
      ∀ ev a, ∃ s'' e, s'.write sink ev a = (s'', .error e) ∧ TellsDrop x s "ElementWriter dropped before finish" e :=
  ⟨s.poisonWith .writerDropped, rfl, rfl, fun ev a => poisonWith_tells x s .writerDropped sink ev a⟩

example : (WState.mk [] none []).poison = none ∧ TellsDrop ExSE.x { out := [], poison := some (.write "disk full"), steps := [] } "" (.user "disk full") :=
  ⟨rfl, nofun, fun e h => by cases h; rfl⟩

/-- C55: what an implementation returns as its error is what the caller gets, and with it the message. -/
theorem C55_user (x : Ext) (dbg : Bool) (sink : Sink) (name : EName) (attrs : AttrProg) (children : Prog [.writer false]) (m : String)
    (h : (∃ b, attrs.run dbg (Builder.new name []) = .ok (b, .error (.user m))) ∨
      ∃ b s n s', attrs.run dbg (Builder.new name []) = .ok (b, .ok ()) ∧
        b.start sink { out := [], poison := none, steps := [] } = .ok (s, .ok n) ∧
        children.run dbg sink (.cons (h := .writer false) n .nil) s = .ok (s', .error (.user m))) :
    ∃ s e, serializeTo dbg sink name attrs children = .ok (s, .error e) ∧ e.message x = m := by
  unfold serializeTo
  rcases h with ⟨b, h⟩ | ⟨b, s, n, s', h1, h2, h3⟩
  · simp only [h]
    exact ⟨_, _, rfl, rfl⟩
  · simp only [h1, h2, h3]
    exact ⟨_, _, rfl, rfl⟩

example : ∃ b, (AttrProg.namespace "p" "u" (.ret (.error (.user "no")))).run true (Builder.new (ExW.n "" "r") []) = .ok (b, .error (.user "no")) :=
  ⟨_, rfl⟩

end SX
