import Verif.Proof.UnwindTotal
import Verif.Props.Writer

/-
C73: writing when something panics, and implementations that catch the panic.
-/
namespace SX.Unwind
open SX.Open Spec.Unwind
open SX.Open (Ret)

namespace ExU

/-- An `io::Write` that does all it is asked for. -/
def fine : PSink := fun _ _ => .done

/-- An `io::Write` that panics on text. -/
def noText : PSink := fun _ e => match e with | .chars _ => .panics | _ => .done

/-- An `io::Write` that panics on the first end tag. -/
def noStop : PSink := fun tried e => match e with | .stop => if WEvent.stop ∈ tried then .done else .panics | _ => .done

/-- An `io::Write` that panics on the first text and then fails. -/
def panicThenFail : PSink := fun tried e => match e with | .chars t => if WEvent.chars t ∈ tried then .fails "gone" else .panics | _ => .done

/-- Writes text twice and ignores how that ends. -/
def twice : USer := ⟨.ret (.ok ()), .text "t" fun _ => .text "t" fun _ => .ret (.ok ())⟩

/-- A value whose own name is fine but which writes, in its element, an element of a namespace nobody declared; the panic is caught there. -/
def lost : UProg [.writer false] :=
  .element ⟨"urn:u", "c"⟩ (.start (.finish UProg.leave) (fun e => .ret (.error e)) (.text "after" fun _ => .ret (.ok ())))

/-- Catches what a field does. -/
def caught (v : USer) (name : EName) : UProg [.writer false] := fieldOne v name fun _ => .ret (.ok ())

end ExU

attribute [local semireducible] natDigits

/-- C73: whatever panics and whatever is caught, every call has one of the three outcomes: Ok, Err or a panic. -/
theorem C73_total (dbg : Bool) (sink : PSink) (name : EName) (attrs : UAttr) (children : UProg [.writer false]) :
    ∃ s r, serializeTo dbg sink name attrs children = .ok (s, r) := serializeTo_total dbg sink name attrs children

/-- C73: code that catches no panics, over an `io::Write` that has none: the outcome is that of `SX.serializeTo`, where a panic is a fault. -/
theorem C73_agrees (dbg : Bool) (sink : Sink) (name : EName) (attrs : AttrProg) (children : Prog [.writer false]) :
    (∀ s r, SX.serializeTo dbg sink name attrs children = .ok (s, r) →
      ∃ u, serializeTo dbg (calm sink) name (letThroughAttr attrs) (letThrough children .base) = .ok (u, lift r) ∧ u.w = s) ∧
    (SX.serializeTo dbg sink name attrs children = .error .panic ↔
      ∃ u, serializeTo dbg (calm sink) name (letThroughAttr attrs) (letThrough children .base) = .ok (u, .panic)) := by
  have h := serializeTo_letThrough dbg sink name attrs children
  refine ⟨?_, ?_, ?_⟩
  · intro s r hr
    rw [hr] at h
    obtain ⟨u, h1, h2, -⟩ := h
    exact ⟨u, h1, h2⟩
  · intro hr
    rw [hr] at h
    exact h
  · rintro ⟨u, hu⟩
    cases hx : SX.serializeTo dbg sink name attrs children with
    | ok x =>
      obtain ⟨w, r⟩ := x
      rw [hx] at h
      obtain ⟨u', h1, -⟩ := h
      rw [hu] at h1
      cases r <;> simp [lift] at h1
    | error f =>
      rw [hx] at h
      cases f with
      | panic => rfl
      | ub => exact nomatch hu.symm.trans h
      | diverge => exact nomatch hu.symm.trans h
      | fuel => exact nomatch hu.symm.trans h

/-- A program that panics, and one that does not. -/
example : SX.serializeTo true ExW.fine ⟨"", "r"⟩ (.ret (.ok ())) (.element ⟨"urn:u", "c"⟩ (.start (.finish .ret) fun e => .ret (.error e))) = .error .panic ∧
    ∃ s, SX.serializeTo true ExW.fine (ExW.n "urn:d" "r") ExW.attrs ExW.children = .ok (s, .ok ()) := ⟨rfl, _, rfl⟩

/-- C73: if `Serializer::to` returns Ok then one balanced root element was written, whatever was caught, unless an `ElementWriter` was leaked or
writing an end tag panicked (`C73_panicking_stop`). -/
theorem C73_balanced {dbg : Bool} {sink : PSink} {name : EName} {attrs : UAttr} {children : UProg [.writer false]}
    (hsink : EndsSafely sink) (hf : NoForget children) {s : UState} (h : serializeTo dbg sink name attrs children = .ok (s, .ok ())) :
    ∃ q a ns f, s.w.out = Spec.documentEvents q a ns f := by
  obtain ⟨sink', attrs', children', h1, -, -, h2⟩ := serializeTo_resolve h nofun
  exact C25_balanced_partial (h2 hsink hf) h1

example : EndsSafely ExU.noText ∧ NoForget (ExU.caught ExU.twice ⟨"", "f"⟩) ∧
    ∃ s, serializeTo true ExU.noText ⟨"", "r"⟩ (.ret (.ok ())) (ExU.caught ExU.twice ⟨"", "f"⟩) = .ok (s, .ok ()) ∧
      s.w.out = [.start ⟨none, "r"⟩ [] [], .start ⟨none, "f"⟩ [] [], .stop, .stop] := by
  refine ⟨fun _ => nofun, ?_, _, rfl, rfl⟩
  refine ⟨fun r r' => ?_, fun e => trivial, trivial⟩
  exact fun _ => trivial

/-- C73: any write that returned an error and any element abandoned while unwinding or on `?` keeps the call from returning Ok; nothing is written
after the first of them, and each later write fails with its error. -/
theorem C73_first_failure_sticks {dbg : Bool} {sink : PSink} {name : EName} {attrs : UAttr} {children : UProg [.writer false]}
    {s : UState} {r : Ret SErr Unit} (h : serializeTo dbg sink name attrs children = .ok (s, r))
    (pre : List Step) (x : Step) (post : List Step) (hs : s.w.steps = pre ++ x :: post) (e : SErr) (hx : Spec.stepError x = some e)
    (hpre : ∀ y ∈ pre, Spec.stepError y = none) :
    r ≠ .ok () ∧ s.w.poison = some e ∧ (∀ y ∈ post, Spec.StuckWith e y) ∧ s.w.out = pre.filterMap Spec.stepEvent := by
  have hst := serializeTo_sticky h
  refine ⟨?_, sticky_first hst pre x post hs e hx hpre⟩
  rintro rfl
  obtain ⟨sink', attrs', children', h1, -, -, -⟩ := serializeTo_resolve h nofun
  exact C25_failures_reported h1 (by rw [hs]; simp) hx rfl

/-- The first text panics (caught), the second fails, the error is ignored: `to` reports it. -/
example : ∃ s, serializeTo true ExU.panicThenFail ⟨"", "r"⟩ (.ret (.ok ())) ExU.twice.children = .ok (s, .err (.write "gone")) ∧
    s.w.steps = [.wrote (.start ⟨none, "r"⟩ [] []) (some (⟨"", "r"⟩, []))] ++ .failed (.chars "t") (.write "gone") :: [.failed .stop (.write "gone")] :=
  ⟨_, rfl, rfl⟩

/-- C73: whatever was caught, in what was written every attribute is resolved to the name that was asked for. -/
theorem C73_attributes {dbg : Bool} {sink : PSink} {name : EName} {attrs : UAttr} {children : UProg [.writer false]}
    (ha : AttrMappings (Spec.MappingOk dbg) attrs) (hc : Mappings (Spec.MappingOk dbg) children) {s : UState} {r : Ret SErr Unit} (hr : r ≠ .panic)
    (h : serializeTo dbg sink name attrs children = .ok (s, r)) (pre : List Step) (q : WName) (as : List (WName × String)) (ns : SMap String)
    (asked : Option (EName × List (EName × String))) (post : List Step)
    (hs : s.w.steps = pre ++ .wrote (.start q as ns) asked :: post) :
    ∃ n l, asked = some (n, l) ∧
      as.map (fun a => (Spec.resolveAttr (ns :: Spec.openScopes (pre.filterMap Spec.stepEvent) []) a.1, a.2)) = l.map fun a => (some a.1, a.2) := by
  obtain ⟨sink', attrs', children', h1, h2, h3, -⟩ := serializeTo_resolve h hr
  exact C29_attributes (h2 _ ha) (h3 _ hc) h1 pre q as ns asked post hs

/-- C73: and so is every element, except those without namespace within a default namespace (as in C29). -/
theorem C73_elements_iff {dbg : Bool} {sink : PSink} {name : EName} {attrs : UAttr} {children : UProg [.writer false]}
    (ha : AttrMappings (Spec.MappingOk dbg) attrs) (hc : Mappings (Spec.MappingOk dbg) children) {s : UState} {r : Ret SErr Unit} (hr : r ≠ .panic)
    (h : serializeTo dbg sink name attrs children = .ok (s, r)) (pre : List Step) (q : WName) (as : List (WName × String)) (ns : SMap String)
    (asked : Option (EName × List (EName × String))) (post : List Step)
    (hs : s.w.steps = pre ++ .wrote (.start q as ns) asked :: post) :
    ∃ n l, asked = some (n, l) ∧ (Spec.resolveElem (ns :: Spec.openScopes (pre.filterMap Spec.stepEvent) []) q = some n ↔
      n.ns ≠ "" ∨ Spec.lookupPrefix (Spec.openScopes (pre.filterMap Spec.stepEvent) []) "" = none) := by
  obtain ⟨sink', attrs', children', h1, h2, h3, -⟩ := serializeTo_resolve h hr
  exact C29_elements_iff (h2 _ ha) (h3 _ hc) h1 pre q as ns asked post hs

/-- A panic of starting an element, caught. -/
example : AttrMappings (Spec.MappingOk true) (.namespace "q" "urn:v" fun _ => .attribute ⟨"urn:v", "a"⟩ "1" fun _ => .ret (.ok ())) ∧
    Mappings (Spec.MappingOk true) ExU.lost ∧
    ∃ s, serializeTo true ExU.fine ⟨"", "r"⟩ (.namespace "q" "urn:v" fun _ => .attribute ⟨"urn:v", "a"⟩ "1" fun _ => .ret (.ok ())) ExU.lost = .ok (s, .ok ()) ∧
      s.w.steps = [] ++ .wrote (.start ⟨none, "r"⟩ [(⟨some "q", "a"⟩, "1")] [("q", "urn:v")]) (some (⟨"", "r"⟩, [(⟨"urn:v", "a"⟩, "1")])) ::
        [.wrote (.chars "after") none, .wrote .stop none] :=
  ⟨⟨⟨by decide, .inr (by decide)⟩, fun _ _ => trivial⟩,
    ⟨fun r => by cases r <;> exact trivial, fun _ => trivial, fun _ => trivial⟩, _, rfl, rfl⟩

/-- C73: a field (`SerializeField::write` for `T: Serialize`) that ends in a panic leaves the serializer poisoned, unless the panic is one of the crate
or the `io::Write` while its start tag is written (then nothing was written) or while its end tag is. -/
theorem C73_field {dbg : Bool} {sink : PSink} {v : USer} {name : EName} {n : Namespaces} {s s' : UState}
    (h : (fieldOne v name UProg.leave).run dbg sink (.cons (h := .writer false) n .nil) s = .ok (s', .panic)) :
    s'.w.poison ≠ none ∨ s'.w = s.w ∨ ∃ tried, sink tried .stop = .panics := by
  have hl : ∀ (r : Ret SErr Unit) st (s : UState), (UProg.leave r).run dbg sink st s = .ok (s', .panic) → s = s' ∧ r = .panic := by
    intro r st s h
    cases r with
    | ok u => simp [UProg.leave, UProg.run] at h
    | err e => simp [UProg.leave, UProg.run] at h
    | panic => simp only [UProg.leave, UProg.run, Except.ok.injEq, Prod.mk.injEq, and_true] at h; exact ⟨h, rfl⟩
  have hp : ∀ (s : UState) (e : SErr), s.poisonWith e = s' → s'.w.poison ≠ none := by
    rintro s e rfl
    simp [UState.poisonWith, WState.poisonWith]
  rw [fieldOne_run] at h
  split at h
  · simp at h
  · exact absurd (hl _ _ _ h).2 nofun
  · exact .inl (hp _ _ (hl _ _ _ h).1)
  · split at h
    · simp at h
    · exact absurd (hl _ _ _ h).2 nofun
    · rename_i hs
      rw [(hl _ _ _ h).1] at hs
      rcases start_write hs with ⟨-, rfl⟩ | ⟨m, q, attrs, r', -, -, -, hw, h5⟩
      · exact .inr (.inl rfl)
      · rcases h5 with ⟨-, h5⟩ | ⟨e, -, h5⟩ | ⟨rfl, -⟩
        · simp at h5
        · simp at h5
        · exact .inr (.inl (write_panics hw).1)
    · split at h
      · simp at h
      · exact absurd (hl _ _ _ h).2 nofun
      · exact .inl (hp _ _ (hl _ _ _ h).1)
      · rename_i s2 _
        have := (hl _ _ _ h).2
        rcases hw : s2.write sink .stop none with ⟨s3, r⟩
        rw [hw] at this
        subst this
        exact .inr (.inr ⟨_, (write_panics hw).2⟩)

/-- The field's own text panics: poisoned. -/
example : ∃ s', (fieldOne ⟨.ret (.ok ()), .text "t" UProg.leave⟩ ⟨"", "f"⟩ UProg.leave).run true ExU.noText (.cons (h := .writer false) ⟨[], []⟩ .nil)
    { w := { out := [], poison := none, steps := [] }, tried := [], answers := [] } = .ok (s', .panic) ∧ s'.w.poison = some .writerDropped := ⟨_, rfl, rfl⟩

/-- C73: a panic of `start`, of text and of `finish`, whatever its cause, leaves no trace in the serializer: the program that catches it goes on as if it
had not made the call (only that the `io::Write` may know of it). -/
theorem C73_panic_unnoticed (dbg : Bool) (sink : PSink) (s : UState) :
    (∀ (hs : List Handle) (b : Builder) (st : HStates hs) ok fail pn s', Unwind.start sink b s = .ok (s', .panic) →
      s'.w = s.w ∧ (UProg.start ok fail pn).run dbg sink (.cons (h := .builder) b st) s = pn.run dbg sink st s') ∧
    (∀ (o : Bool) (hs : List Handle) (st : HStates (.writer o :: hs)) t k, sink s.tried (.chars t) = .panics → s.w.poison = none →
      ∃ s', s'.w = s.w ∧ (UProg.text t k).run dbg sink st s = (k .panic).run dbg sink st s') ∧
    (∀ (hs : List Handle) (n : Namespaces) (st : HStates hs) k, sink s.tried .stop = .panics → s.w.poison = none →
      ∃ s', s'.w = s.w ∧ (UProg.finish k).run dbg sink (.cons (h := .writer true) n st) s = (k .panic).run dbg sink st s') := by
  have hw : ∀ e a, sink s.tried e = .panics → s.w.poison = none → ∃ s', s'.w = s.w ∧ s.write sink e a = (s', .panic) := by
    intro e a h1 h2
    unfold UState.write
    rw [h2]
    simp only [h1]
    exact ⟨{ s with tried := s.tried ++ [e] }, rfl, rfl⟩
  refine ⟨?_, ?_, ?_⟩
  · intro hs b st ok fail pn s' h
    refine ⟨?_, by rw [run_start, h]⟩
    rcases start_write h with ⟨-, rfl⟩ | ⟨n, q, attrs, r', -, -, -, hw, h5⟩
    · rfl
    · rcases h5 with ⟨-, h5⟩ | ⟨e, -, h5⟩ | ⟨rfl, -⟩
      · simp at h5
      · simp at h5
      · exact (write_panics hw).1
  · intro o hs st t k h1 h2
    obtain ⟨s', h3, h4⟩ := hw (.chars t) none h1 h2
    exact ⟨s', h3, by simp only [UProg.run, h4]⟩
  · intro hs n st k h1 h2
    obtain ⟨s', h3, h4⟩ := hw .stop none h1 h2
    refine ⟨s', h3, ?_⟩
    show UProg.run dbg sink (k (s.write sink .stop none).2) st (s.write sink .stop none).1 = _
    rw [h4]

/-- An attribute of a namespace nobody declared. -/
example : Unwind.start ExU.fine ⟨⟨"", "r"⟩, [], [(⟨"urn:u", "a"⟩, "1")], []⟩ { w := { out := [], poison := none, steps := [] }, tried := [], answers := [] } =
    .ok ({ w := { out := [], poison := none, steps := [] }, tried := [], answers := [] }, .panic) := rfl

/-- C73: which panics of `start` are the crate's own: those of names that cannot be resolved, for which nothing is given to the `io::Write`. -/
theorem C73_start_panics_iff (sink : PSink) (b : Builder) (s : UState) (hs : Calm sink) :
    Unwind.start sink b s = .ok (s, .panic) ↔ Builder.start (fun _ _ => none) b s.w = .error .panic := by
  unfold Unwind.start Builder.start
  cases b.ns.finalize with
  | error f => cases f <;> simp
  | ok n =>
    simp only
    cases n.resolveElement b.name with
    | error f => cases f <;> simp
    | ok q =>
      simp only
      cases SX.resolveAttrs n b.attrs with
      | error f => cases f <;> simp
      | ok attrs =>
        simp only
        rcases hw : s.write sink (.start q attrs n.byPrefix) (some (b.name, b.attrs)) with ⟨s1, r⟩
        rcases hw' : s.w.write (fun _ _ => none) (.start q attrs n.byPrefix) (some (b.name, b.attrs)) with ⟨w1, r'⟩
        cases r with
        | panic => exact absurd (write_panics hw).2 (hs _ _)
        | ok u => cases r' <;> simp
        | err e => cases r' <;> simp

/-- C73: the field's own start panicked: an implementation that catches this goes on, and `to` returns Ok though the element is missing. -/
theorem C73_lost_element : ∃ s, serializeTo false ExU.fine ⟨"", "r"⟩ (.ret (.ok ())) ExU.lost = .ok (s, .ok ()) ∧
    s.w.out = [.start ⟨none, "r"⟩ [] [], .chars "after", .stop] := ⟨_, rfl, rfl⟩

/-- In a debug build, asking for the prefix `xml` panics.  If that is caught the builder is as before, and the mapping asked for next is used. -/
example : ∃ s, serializeTo true ExU.fine ⟨"urn:v", "r"⟩ (.namespace "xml" "urn:v" fun _ => .namespace "q" "urn:v" fun _ => .ret (.ok ())) (.ret (.ok ())) = .ok (s, .ok ()) ∧
    s.w.out = [.start ⟨some "q", "r"⟩ [] [("q", "urn:v")], .stop] := ⟨_, rfl, rfl⟩

/-- C73: a caught panic while an end tag is written: Ok, and the document is not balanced. -/
theorem C73_panicking_stop : NoForget (ExU.caught ExU.twice ⟨"", "f"⟩) ∧
    ∃ s, serializeTo false ExU.noStop ⟨"", "r"⟩ (.ret (.ok ())) (ExU.caught ExU.twice ⟨"", "f"⟩) = .ok (s, .ok ()) ∧
      ¬ ∃ q a ns f, s.w.out = Spec.documentEvents q a ns f := by
  refine ⟨⟨fun r r' => fun _ => trivial, fun e => trivial, trivial⟩, _, rfl, ?_⟩
  rintro ⟨q, a, ns, f, h⟩
  have : Spec.leftOpen (Spec.documentEvents q a ns f) = 0 := by
    rw [Spec.documentEvents, leftOpen_cons, leftOpen_append, leftOpen_forest]
    rfl
  rw [← h] at this
  exact absurd this (by decide)

end SX.Unwind
