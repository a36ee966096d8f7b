import Verif.Proof.WriterPlain
import Verif.Proof.WriterLeaks

/-
C25-C30: what the serializer's writer guarantees, for any `Serialize` implementation.
-/
namespace SX
open Spec

/-! Concrete programs used to show that hypotheses are met, and that they are needed. -/
namespace ExW

attribute [local semireducible] natDigits

def n (u l : String) : EName := { ns := u, loc := l }

/-- A sink that accepts all. -/
def fine : Sink := fun _ _ => none

/-- A sink that fails on text. -/
def noText : Sink := fun _ e => match e with | .chars _ => some "disk full" | _ => none

/-- Two mappings, one of them the default namespace, which an attribute needs with a prefix; and an attribute
twice (the error is ignored). -/
def attrs : AttrProg :=
  .namespace "p" "urn:u" (.namespace "" "urn:d" (.attribute (n "urn:d" "a") "1" fun _ => .attribute (n "urn:d" "a") "2" fun _ =>
    .attribute (n "" "a") "3" fun r => .ret r))

/-- `<c xmlns:p="urn:v" p:x="y">text</c>`, where `p` was mapped to `urn:u`. -/
def children : Prog [.writer false] :=
  .element (n "urn:u" "c") (.namespace "p" "urn:v" (.attribute (n "urn:v" "x") "y" fun _ =>
    .start (.text "text" fun _ => .finish fun r => .ret r) fun e => .ret (.error e)))

theorem attrs_ok (dbg nd : Bool) (h : nd = false) : AttrProg.Mappings (MapOk dbg nd) attrs := by
  subst h
  refine ⟨⟨⟨by decide, .inr (by decide)⟩, by simp⟩, ⟨⟨by decide, .inr (by decide)⟩, by simp⟩, ?_⟩
  intro _ _ _
  exact trivial

theorem children_ok (dbg nd : Bool) : Prog.Mappings (MapOk dbg nd) children := by
  refine ⟨⟨⟨by decide, .inr (by decide)⟩, fun _ => by decide⟩, fun _ => ⟨fun _ _ => trivial, fun _ => trivial⟩⟩

def doc : Except Fault (WState × Except SErr Unit) := serializeTo true fine (n "urn:d" "r") attrs children

/-- The events of `doc`. -/
def docOut : List WEvent :=
  [.start ⟨some "ns1", "r"⟩ [(⟨some "ns1", "a"⟩, "1"), (⟨none, "a"⟩, "3")] [("ns1", "urn:d"), ("p", "urn:u")],
   .start ⟨some "p", "c"⟩ [(⟨some "p2", "x"⟩, "y")] [("ns1", "urn:d"), ("p", "urn:u"), ("p2", "urn:v")],
   .chars "text", .stop, .stop]

theorem doc_ok : ∃ s, doc = .ok (s, .ok ()) ∧ s.out = docOut := by
  refine ⟨_, rfl, ?_⟩
  rfl

end ExW

attribute [local semireducible] natDigits

/-! ### C25 -/

/-- C25: if `Serializer::to` returns Ok, then one balanced root element was written, unless an `ElementWriter` was leaked with
`std::mem::forget` (`C25_forget_counterexample`). -/
theorem C25_balanced_partial {dbg : Bool} {sink : Sink} {name : EName} {attrs : AttrProg} {children : Prog [.writer false]}
    (hf : NoForget children) {s : WState} (h : serializeTo dbg sink name attrs children = .ok (s, .ok ())) :
    ∃ q a ns f, s.out = documentEvents q a ns f := serializeTo_balanced hf h

/-- C25, per cause: any failed write and any abandoned element makes it return Err. -/
theorem C25_failures_reported {dbg : Bool} {sink : Sink} {name : EName} {attrs : AttrProg} {children : Prog [.writer false]}
    {s : WState} {r : Except SErr Unit} (h : serializeTo dbg sink name attrs children = .ok (s, r))
    {x : Step} (hx : x ∈ s.steps) {e : SErr} (he : stepError x = some e) : r ≠ .ok () := by
  rintro rfl
  have hst := serializeTo_sticky h
  have hp : s.poison = none := by
    unfold serializeTo at h
    simp only at h
    split at h
    · simp at h
    · simp at h
    · split at h
      · simp at h
      · simp at h
      · split at h
        · simp at h
        · simp at h
        · rename_i s2 hr
          simp only [Except.ok.injEq] at h
          have hw : (s2.write sink .stop none).2 = .ok () := by rw [h]
          have := write_ok hw
          rw [h] at this
          exact this
  rw [hst.clean hp x hx] at he
  simp at he

example : ∃ s, serializeTo true ExW.fine (ExW.n "urn:d" "r") ExW.attrs ExW.children = .ok (s, .ok ()) ∧
    NoForget ExW.children ∧
    s.out = documentEvents ⟨some "ns1", "r"⟩ [(⟨some "ns1", "a"⟩, "1"), (⟨none, "a"⟩, "3")] [("ns1", "urn:d"), ("p", "urn:u")]
      (.elem ⟨some "p", "c"⟩ [(⟨some "p2", "x"⟩, "y")] [("ns1", "urn:d"), ("p", "urn:u"), ("p2", "urn:v")] (.chars "text" .nil) .nil) :=
  by
    refine ⟨_, rfl, by simp [NoForget, ExW.children], ?_⟩
    rfl

/-- C25, exactly: a document that was written with Ok has as many elements left open as `ElementWriter`s were leaked with
`std::mem::forget`; it is balanced if and only if there were none. -/
theorem C25_balanced_iff {dbg : Bool} {sink : Sink} {name : EName} {attrs : AttrProg} {children : Prog [.writer false]}
    {s : WState} (h : serializeTo dbg sink name attrs children = .ok (s, .ok ())) :
    leftOpen s.out = Prog.leaks children [] ∧
    ((∃ q a ns f, s.out = documentEvents q a ns f) ↔ Prog.leaks children [] = 0) := by
  obtain ⟨h1, h2⟩ := serializeTo_leaks h
  refine ⟨h1, ?_, h2⟩
  rintro ⟨q, a, ns, f, hd⟩
  rw [hd, documentEvents, leftOpen_cons, leftOpen_append, leftOpen_forest] at h1
  simp [leftOpen, eventWeight] at h1
  omega

/-- Two elements left open: the writer of an outer one is leaked after that of an inner one. -/
def ExW.leaky : Prog [.writer false] :=
  .element (n "" "c") (.start (.element (n "" "d") (.start (.forgetWriter (.forgetWriter (.text "t" fun _ => .ret (.ok ()))))
    fun e => .dropWriter (.ret (.error e)))) fun e => .ret (.error e))

example : Prog.leaks ExW.leaky [] = 2 ∧ ∃ s, serializeTo true ExW.fine (ExW.n "" "r") (.ret (.ok ())) ExW.leaky = .ok (s, .ok ()) ∧
    s.out = [.start ⟨none, "r"⟩ [] [], .start ⟨none, "c"⟩ [] [], .start ⟨none, "d"⟩ [] [], .chars "t", .stop] := ⟨rfl, _, rfl, rfl⟩

/-- The exclusion of `std::mem::forget` is needed: leaking an `ElementWriter` gives Ok and an unbalanced document. -/
theorem C25_forget_counterexample : ∃ (children : Prog [.writer false]) (s : WState),
    serializeTo true ExW.fine (ExW.n "" "r") (.ret (.ok ())) children = .ok (s, .ok ()) ∧
    ¬ ∃ q a ns f, s.out = documentEvents q a ns f := by
  refine ⟨.element (ExW.n "" "c") (.start (.forgetWriter (.ret (.ok ()))) fun e => .ret (.error e)), _, rfl, ?_⟩
  rw [(C25_balanced_iff (dbg := true) (sink := ExW.fine) (name := ExW.n "" "r") (attrs := .ret (.ok ()))
    (children := .element (ExW.n "" "c") (.start (.forgetWriter (.ret (.ok ()))) fun e => .ret (.error e))) rfl).2]
  simp [Prog.leaks]

/-! ### C26 -/

/-- C26: nothing is written after the first failed write or abandoned element, and every later write fails with
the error of that first failure. -/
theorem C26_first_failure_sticks {dbg : Bool} {sink : Sink} {name : EName} {attrs : AttrProg} {children : Prog [.writer false]}
    {s : WState} {r : Except SErr Unit} (h : serializeTo dbg sink name attrs children = .ok (s, r))
    (pre : List Step) (x : Step) (post : List Step) (hs : s.steps = pre ++ x :: post) (e : SErr) (hx : stepError x = some e)
    (hpre : ∀ y ∈ pre, stepError y = none) :
    s.poison = some e ∧ (∀ y ∈ post, StuckWith e y) ∧ s.out = pre.filterMap stepEvent := by
  have hst := serializeTo_sticky h
  cases hp : s.poison with
  | none =>
    have := hst.clean hp x (by rw [hs]; simp)
    rw [hx] at this
    simp at this
  | some e' =>
    obtain ⟨pre', x', post', h1, h2, h3, h4⟩ := hst.stuck e' hp
    have heq : pre' = pre ∧ x' = x ∧ post' = post := by
      rw [hs] at h1
      clear hs hst h4
      induction pre generalizing pre' with
      | nil =>
        cases pre' with
        | nil =>
          simp only [List.nil_append, List.cons.injEq] at h1
          exact ⟨rfl, h1.1.symm, h1.2.symm⟩
        | cons y pre' =>
          simp only [List.nil_append, List.cons_append, List.cons.injEq] at h1
          have := h2 y (by simp)
          rw [← h1.1, hx] at this
          simp at this
      | cons z pre ih =>
        cases pre' with
        | nil =>
          simp only [List.nil_append, List.cons_append, List.cons.injEq] at h1
          have := hpre z (by simp)
          rw [h1.1, h3] at this
          simp at this
        | cons y pre' =>
          simp only [List.cons_append, List.cons.injEq] at h1
          obtain ⟨k1, k2, k3⟩ := ih (fun y hy => hpre y (List.mem_cons_of_mem _ hy)) pre'
            h1.2 (fun y hy => h2 y (List.mem_cons_of_mem _ hy))
          exact ⟨by rw [k1, h1.1], k2, k3⟩
    obtain ⟨rfl, rfl, rfl⟩ := heq
    rw [hx] at h3
    simp only [Option.some.injEq] at h3
    subst h3
    refine ⟨rfl, h4, ?_⟩
    rw [hst.out, hs]
    have hno : ∀ l : List Step, (∀ y ∈ l, stepEvent y = none) → l.filterMap stepEvent = [] := fun l hl => List.filterMap_eq_nil_iff.mpr hl
    rw [List.filterMap_append, hno (x' :: post'), List.append_nil]
    intro y hy
    rcases List.mem_cons.mp hy with rfl | hy
    · cases y with
      | wrote _ _ => simp [stepError] at hx
      | failed _ _ => rfl
      | abandoned _ => rfl
    · have := h4 y hy
      cases y with
      | wrote _ _ => exact this.elim
      | failed _ _ => rfl
      | abandoned _ => rfl

/-- C26, as the program sees it: after a failure with `e`, each `text`, `start` and `finish` gives it that same error and leaves
the output alone; starting may also panic (undeclared namespaces). -/
theorem C26_program_sees (dbg : Bool) (sink : Sink) (s : WState) (e : SErr) (h : s.poison = some e) :
    (∀ (o : Bool) (hs : List Handle) (st : HStates (.writer o :: hs)) t k, ∃ s', s'.out = s.out ∧ s'.poison = some e ∧
      (Prog.text t k).run dbg sink st s = (k (.error e)).run dbg sink st s') ∧
    (∀ (hs : List Handle) (n : HState (.writer true)) (st : HStates hs) k, ∃ s', s'.out = s.out ∧ s'.poison = some e ∧
      (Prog.finish k).run dbg sink (.cons (h := .writer true) n st) s = (k (.error e)).run dbg sink st s') ∧
    (∀ (hs : List Handle) (b : HState .builder) (st : HStates hs) ok fail, (∃ f, (Prog.start ok fail).run dbg sink (.cons (h := .builder) b st) s = .error f) ∨
      ∃ s', s'.out = s.out ∧ s'.poison = some e ∧
      (Prog.start ok fail).run dbg sink (.cons (h := .builder) b st) s = (fail e).run dbg sink st s') := by
  have hw : ∀ ev a, ∃ s', s'.out = s.out ∧ s'.poison = some e ∧ s.write sink ev a = (s', .error e) := by
    intro ev a
    refine ⟨{ s with steps := s.steps ++ [.failed ev e] }, rfl, h, ?_⟩
    unfold WState.write
    simp only [h]
  refine ⟨?_, ?_, ?_⟩
  · intro o hs st t k
    obtain ⟨s', h1, h2, h3⟩ := hw (.chars t) none
    exact ⟨s', h1, h2, by simp only [Prog.run, h3]⟩
  · intro hs n st k
    obtain ⟨s', h1, h2, h3⟩ := hw .stop none
    exact ⟨s', h1, h2, by simp only [Prog.run, h3]⟩
  · intro hs b st ok fail
    cases hb : Builder.start sink b s with
    | error f => exact .inl ⟨f, by simp only [Prog.run, hb]⟩
    | ok x =>
      obtain ⟨s1, r⟩ := x
      obtain ⟨n, q, as, -, -, -, h4, h5⟩ := start_cases hb
      obtain ⟨s', h1, h2, h3⟩ := hw (.start q as n.byPrefix) (some (Builder.name b, Builder.attrs b))
      rw [h3] at h4 h5
      rcases h5 with ⟨h5, -⟩ | ⟨e', h5, h6⟩
      · simp at h5
      · simp only [Except.error.injEq] at h5
        subst h4 h5 h6
        exact .inr ⟨s1, h1, h2, by simp only [Prog.run, hb]⟩

/-- C26: the first failed write is reported with its own message. -/
theorem C26_first_error (sink : Sink) (s : WState) (h : s.poison = none) (ev : WEvent) (a : Option (EName × List (EName × String)))
    (m : String) (hm : sink s.out ev = some m) :
    ∃ s', s.write sink ev a = (s', .error (.write m)) ∧ s'.out = s.out ∧ s'.poison = some (.write m) := by
  unfold WState.write
  rw [h, hm]
  exact ⟨_, rfl, rfl, rfl⟩

/-- C26: if the implementation swallows all errors, `Serializer::to` reports the first one. -/
theorem C26_swallowed_reported {dbg : Bool} {sink : Sink} {name : EName} {children : Prog [.writer false]} {s s1 s2 : WState}
    {n : Namespaces} {r : Except SErr Unit} (h : serializeTo dbg sink name (.ret (.ok ())) children = .ok (s, r))
    (hs : (Builder.new name []).start sink { out := [], poison := none, steps := [] } = .ok (s1, .ok n))
    (hc : children.run dbg sink (.cons (h := .writer false) n .nil) s1 = .ok (s2, .ok ())) {e : SErr} (hp : s2.poison = some e) :
    r = .error e := by
  unfold serializeTo at h
  simp only [AttrProg.run, hs, hc, Except.ok.injEq] at h
  have := (write_poisoned (sink := sink) (e := .stop) (a := none) hp).2
  rw [h] at this
  exact this

example : ∃ s, serializeTo true ExW.noText (ExW.n "urn:d" "r") ExW.attrs ExW.children = .ok (s, .error (.write "disk full")) ∧
    s.out = ExW.docOut.take 2 ∧ s.poison = some (.write "disk full") ∧ s.steps.length = 5 := by
  refine ⟨_, rfl, ?_, ?_, ?_⟩ <;> rfl

/-- A program that ignores the error. -/
example : ∃ s, serializeTo true ExW.noText (ExW.n "" "r") (.ret (.ok ())) (.text "t" fun _ => .ret (.ok ())) =
    .ok (s, .error (.write "disk full")) ∧ s.out.length = 1 := by
  refine ⟨_, rfl, ?_⟩
  rfl

/-! ### C27 -/

/-- C27: after any calls on a new builder, its attributes are the first of each name, in order, with the first value; adding
a name again was an error. -/
theorem C27_calls (dbg : Bool) (name : EName) (ns : NsBuilder) (calls : List BCall) (b : Builder) (rs : List (Except SErr Unit))
    (h : runCalls dbg calls (Builder.new name ns) = .ok (b, rs)) :
    b.name = name ∧ b.attrs = keepFirst (attrCalls calls) ∧ rs = attrResults [] (attrCalls calls) := by
  obtain ⟨-, h2, h3, h4⟩ := runCalls_spec dbg calls (Builder.new name ns) rfl [] rfl b rs h
  exact ⟨h2, h3, h4⟩

/-- C27: a call that fails changes nothing. -/
theorem C27_failed_call (b b' : Builder) (n : EName) (v : String) (e : SErr) (h : b.attribute n v = .ok (b', .error e)) : b' = b := by
  unfold Builder.attribute at h
  split at h
  · split at h
    · simp at h
    · simp only [Except.ok.injEq, Prod.mk.injEq] at h
      exact h.1.symm
  · simp at h

example : ∃ b, runCalls true [.attribute (ExW.n "" "a") "1"] (Builder.new (ExW.n "" "r") []) = .ok (b, [.ok ()]) ∧
    ∃ b' e, b.attribute (ExW.n "" "a") "2" = .ok (b', .error e) ∧ b' = b :=
  ⟨_, rfl, _, _, rfl, C27_failed_call _ _ (ExW.n "" "a") "2" (.duplicateAttribute (ExW.n "" "a") "1" "2") rfl⟩

/-- C27: in a release build, the calls themselves never panic. -/
theorem C27_calls_total (name : EName) (ns : NsBuilder) (calls : List BCall) :
    ∃ b rs, runCalls false calls (Builder.new name ns) = .ok (b, rs) := runCalls_total calls _ rfl

theorem keepFirst_nodup (l : List (EName × String)) : ((keepFirst l).map Prod.fst).Nodup := by
  induction l with
  | nil => simp [keepFirst]
  | cons a l ih =>
    simp only [keepFirst, List.map_cons, List.nodup_cons]
    refine ⟨?_, ?_⟩
    · intro h
      obtain ⟨b, hb, hb'⟩ := List.mem_map.mp h
      have := (List.mem_filter.mp hb).2
      simp [hb'] at this
    · exact List.Nodup.sublist (List.Sublist.map _ List.filter_sublist) ih

/-- C27: the attributes of a written start tag are the ones asked for, in order, with distinct names in both senses. -/
theorem C27_written {dbg : Bool} {sink : Sink} {name : EName} {attrs : AttrProg} {children : Prog [.writer false]}
    (ha : AttrProg.Mappings (MappingOk dbg) attrs) (hc : Prog.Mappings (MappingOk dbg) children) {s : WState} {r : Except SErr Unit}
    (h : serializeTo dbg sink name attrs children = .ok (s, r)) {q : WName} {as : List (WName × String)} {ns : SMap String}
    (hm : WEvent.start q as ns ∈ s.out) :
    (as.map Prod.fst).Nodup ∧ ∀ outer, (as.map fun a => resolveAttr (ns :: outer) a.1).Nodup ∧
      ∀ a ∈ as, resolveAttr (ns :: outer) a.1 ≠ none := by
  have hst := serializeTo_sticky h
  have hsteps := serializeTo_steps (nd := false) (AttrProg.Mappings.mono (fun p u h => ⟨h, by simp⟩) _ ha)
    (Prog.Mappings.mono (fun p u h => ⟨h, by simp⟩) _ hc) h
  rw [hst.out] at hm
  obtain ⟨n, l, hok⟩ := steps_start hsteps hm
  have hres : ∀ outer, (as.map fun a => resolveAttr (ns :: outer) a.1) = (l.map Prod.fst).map some := by
    intro outer
    have := congrArg (List.map Prod.fst) (hok.attrs outer)
    simpa [List.map_map, Function.comp_def] using this
  have hnd : ((l.map Prod.fst).map some).Nodup := by
    rw [List.nodup_iff_pairwise_ne, List.pairwise_map]
    exact List.Pairwise.imp (fun hne hs => hne (Option.some.inj hs)) (List.nodup_iff_pairwise_ne.mp hok.distinct)
  refine ⟨?_, fun outer => ⟨by rw [hres outer]; exact hnd, ?_⟩⟩
  · have h1 : ((as.map Prod.fst).map fun w => resolveAttr (ns :: []) w).Nodup := by
      have := hres []
      rw [List.map_map]
      show (as.map fun a => resolveAttr (ns :: []) a.1).Nodup
      rw [this]
      exact hnd
    rw [List.nodup_iff_pairwise_ne, List.pairwise_map] at h1
    rw [List.nodup_iff_pairwise_ne]
    exact List.Pairwise.imp (fun hne hs => hne (by rw [hs])) h1
  · intro a ha' hno
    have : none ∈ (as.map fun a => resolveAttr (ns :: outer) a.1) := List.mem_map.mpr ⟨a, ha', hno⟩
    rw [hres outer] at this
    simp at this

/-- C27: the calls of the example. -/
example : ∃ b, runCalls true [.namespace "p" "urn:u", .attribute (ExW.n "urn:u" "a") "1", .attribute (ExW.n "" "a") "2",
      .attribute (ExW.n "urn:u" "a") "3"] (Builder.new (ExW.n "" "r") []) =
    .ok (b, [.ok (), .ok (), .error (.duplicateAttribute (ExW.n "urn:u" "a") "1" "3")]) ∧
    b.attrs = [(ExW.n "urn:u" "a", "1"), (ExW.n "" "a", "2")] := by
  refine ⟨_, rfl, ?_⟩
  rfl

/-! ### C28 -/

/-- The mappings after some calls on a builder whose inherited mappings are `ns` are well formed. -/
theorem runCalls_ok (dbg : Bool) (calls : List BCall) (b b' : Builder) (rs : List (Except SErr Unit)) (hb : b.ns.Ok)
    (h : runCalls dbg calls b = .ok (b', rs)) : b'.ns.Ok := by
  induction calls generalizing b rs with
  | nil =>
    simp only [runCalls, Except.ok.injEq, Prod.mk.injEq] at h
    rw [← h.1]; exact hb
  | cons c calls ih =>
    cases c with
    | «namespace» p u =>
      simp only [runCalls] at h
      split at h
      · simp at h
      · rename_i b1 h1
        exact ih b1 rs ((builder_ok_namespace hb dbg p u).2 b1 h1) h
    | «attribute» n v =>
      simp only [runCalls] at h
      split at h
      · simp at h
      · rename_i b1 r h1
        split at h
        · simp at h
        · rename_i b2 rs' h2
          simp only [Except.ok.injEq, Prod.mk.injEq] at h
          obtain ⟨rfl, -⟩ := h
          exact ih b1 rs' ((builder_ok_attribute hb n v).2 b1 r h1) h2

/-- C28: choosing prefixes terminates, every required URI gets exactly one prefix, and no prefix stands for two URIs. -/
theorem C28_assignment (b : NsBuilder) (hb : b.Ok) :
    ∃ n, b.finalize = .ok n ∧
      (∀ u e, SMap.get b u = some e → e.required = true → ∃ p, n.byPrefix.get p = some u) ∧
      (∀ u p p', n.byPrefix.get p = some u → n.byPrefix.get p' = some u → p = p') ∧
      (n.byPrefix.map Prod.fst).Nodup ∧ (n.byPrefix.map Prod.snd).Nodup := by
  obtain ⟨n, h1, h2, h3⟩ := finalize_spec b hb
  refine ⟨n, h1, ?_, ?_, h2.prefixes, byPrefix_urls h2⟩
  · intro u e he hr
    rw [finalize_get h3] at he
    cases hg : n.byUrl.get u with
    | none => rw [hg] at he; simp at he
    | some e' =>
      rw [hg] at he
      simp only [Option.map_some, Option.some.injEq] at he
      subst he
      obtain ⟨p, hp⟩ := h2.required _ _ hg hr
      exact ⟨p, (h2.iff _ _).mpr ⟨e', hg, hp⟩⟩
  · intro u p p' hp hp'
    obtain ⟨e, he, ha⟩ := (h2.iff _ _).mp hp
    obtain ⟨e', he', ha'⟩ := (h2.iff _ _).mp hp'
    rw [he] at he'
    simp only [Option.some.injEq] at he'
    subst he'
    rw [ha] at ha'
    exact Option.some.inj ha'

/-- C28, for calls on the builder of a root or nested element: every URI asked for gets exactly one prefix. -/
theorem C28_calls (dbg : Bool) (name : EName) (parent : Option Namespaces) (calls : List BCall) (b : Builder) (rs : List (Except SErr Unit))
    (h : runCalls dbg calls (Builder.new name ((parent.map fun n => n.child name.ns).getD [])) = .ok (b, rs)) :
    ∃ n, b.ns.finalize = .ok n ∧ (∀ p u, BCall.namespace p u ∈ calls → ∃ p', n.byPrefix.get p' = some u ∧
      ∀ p'', n.byPrefix.get p'' = some u → p'' = p') := by
  have hok : NsBuilder.Ok ((parent.map fun n => n.child name.ns).getD []) := by
    cases parent with
    | none => exact NsBuilder.Ok.nil
    | some n => exact n.child_ok _
  obtain ⟨n, hn1, hn2, hn3, -, -⟩ := C28_assignment b.ns (runCalls_ok dbg calls _ b rs hok h)
  refine ⟨n, hn1, ?_⟩
  intro p u hm
  have hreq : ∃ e, SMap.get b.ns u = some e ∧ e.required = true := by
    have key : ∀ (calls : List BCall) (b0 : Builder) (rs : List (Except SErr Unit)), runCalls dbg calls b0 = .ok (b, rs) →
        (BCall.namespace p u ∈ calls ∨ ∃ e, SMap.get b0.ns u = some e ∧ e.required = true) →
        ∃ e, SMap.get b.ns u = some e ∧ e.required = true := by
      intro calls
      induction calls with
      | nil =>
        intro b0 rs h hd
        simp only [runCalls, Except.ok.injEq, Prod.mk.injEq] at h
        rw [← h.1]
        simpa using hd
      | cons c calls ih =>
        intro b0 rs h hd
        cases c with
        | «namespace» p' u' =>
          simp only [runCalls] at h
          split at h
          · simp at h
          · rename_i b1 h1
            apply ih b1 rs h
            unfold Builder.namespace at h1
            split at h1
            · simp at h1
            · rename_i ns hns
              simp only [Except.ok.injEq] at h1
              subst h1
              have hset : ∃ e, ns = SMap.set u' e b0.ns ∧ e.required = true := by
                unfold NsBuilder.insert at hns
                split at hns
                · simp at hns
                · split at hns
                  all_goals
                    simp only [Except.ok.injEq] at hns
                    exact ⟨_, hns.symm, rfl⟩
              obtain ⟨e, rfl, he⟩ := hset
              by_cases hu : u' = u
              · right
                refine ⟨e, ?_, he⟩
                simp only [SMap.get_set, if_pos hu]
              · rcases hd with hd | hd
                · rcases List.mem_cons.mp hd with hd | hd
                  · simp only [BCall.namespace.injEq] at hd
                    exact absurd hd.2.symm hu
                  · exact .inl hd
                · right
                  simp only [SMap.get_set, if_neg hu]
                  exact hd
        | «attribute» a v =>
          simp only [runCalls] at h
          split at h
          · simp at h
          · rename_i b1 r h1
            split at h
            · simp at h
            · rename_i b2 rs' h2
              simp only [Except.ok.injEq, Prod.mk.injEq] at h
              obtain ⟨rfl, -⟩ := h
              apply ih b1 rs' h2
              rcases hd with hd | ⟨e, he, hr⟩
              · rcases List.mem_cons.mp hd with hd | hd
                · simp at hd
                · exact .inl hd
              · right
                unfold Builder.attribute at h1
                split at h1
                · split at h1
                  · simp at h1
                  · simp only [Except.ok.injEq, Prod.mk.injEq] at h1
                    rw [← h1.1]; exact ⟨e, he, hr⟩
                · simp only [Except.ok.injEq, Prod.mk.injEq] at h1
                  rw [← h1.1]
                  simp only [NsBuilder.attribute]
                  split
                  · exact ⟨e, he, hr⟩
                  · rw [SMap.get_set]
                    split
                    · exact ⟨_, rfl, rfl⟩
                    · exact ⟨e, he, hr⟩
    exact key calls _ rs h (.inl hm)
  obtain ⟨e, he, hr⟩ := hreq
  obtain ⟨p', hp'⟩ := hn2 u e he hr
  exact ⟨p', hp', fun p'' hp'' => hn3 u p'' p' hp'' hp'⟩

/-- A root that asks for the same prefix twice. -/
example := C28_calls true (ExW.n "urn:d" "r") none [.namespace "p" "urn:u", .namespace "p" "urn:d", .attribute (ExW.n "urn:u" "a") "1"] _ _ rfl

/-- C28: merely inherited mappings have no influence on the prefixes of required URIs. -/
theorem C28_inherited_irrelevant (b : NsBuilder) (hb : b.Ok) (hf : NsBuilder.Ok (b.filter fun x => x.2.required)) {n n' : Namespaces}
    (h : b.finalize = .ok n) (h' : NsBuilder.finalize (b.filter fun x => x.2.required) = .ok n') (u p : String) (e : NsEntry)
    (hu : SMap.get b u = some e) (hr : e.required = true) : n.byPrefix.get p = some u ↔ n'.byPrefix.get p = some u := by
  obtain ⟨m, h1, h2, h3⟩ := finalize_spec b hb
  rw [h] at h1; simp only [Except.ok.injEq] at h1; subst h1
  obtain ⟨m', h1', h2', h3'⟩ := finalize_spec _ hf
  rw [h'] at h1'; simp only [Except.ok.injEq] at h1'; subst h1'
  have hfin := finalize_required b hb h h'
  have hureq : ∀ e', n.byUrl.get u = some e' → e'.required = true := by
    intro e' he'
    rw [finalize_get h3, he'] at hu
    simp only [Option.map_some, Option.some.injEq] at hu
    rw [← hu] at hr
    exact hr
  have hureq' : ∀ e', n'.byUrl.get u = some e' → e'.required = true := by
    intro e' he'
    have h5 := finalize_get h3' u
    rw [he'] at h5
    simp only [Option.map_some] at h5
    have := (List.mem_filter.mp (SMap.get_mem h5)).2
    simpa using this
  constructor
  · intro hp
    obtain ⟨e', he', ha⟩ := (h2.iff _ _).mp hp
    have := (hfin (u, e') (hureq e' he')).mp (SMap.get_mem he')
    exact (h2'.iff _ _).mpr ⟨e', SMap.mem_get h2'.urls this, ha⟩
  · intro hp
    obtain ⟨e', he', ha⟩ := (h2'.iff _ _).mp hp
    have := (hfin (u, e') (hureq' e' he')).mpr (SMap.get_mem he')
    exact (h2.iff _ _).mpr ⟨e', SMap.mem_get h2.urls this, ha⟩

/-- C28: the prefix a required URI gets is the requested one, or that (or `ns`) with a number that is at most two more than the number of mappings made
before; the latter only if the requested one was taken or is not usable. -/
theorem C28_search_short (m : SMap String) (u : String) (e : NsEntry) :
    ∃ p m', assignRequired m u e = .ok (m', p) ∧ m.get p = none ∧ (∀ p', m'.get p' = if p = p' then some u else m.get p') ∧
      (p = e.requested ∨ ∃ j, j ≤ m.length + 2 ∧ p = numbered (if e.requested = "" then "ns" else e.requested) j ∧
        ((e.needsPrefix = true ∧ e.requested = "") ∨ (m.get e.requested).isSome)) := by
  obtain ⟨p, h1, h2, -, h4⟩ := assignRequired_spec m u e
  exact ⟨p, _, h1, h2, fun p' => SMap.get_insertNew m p p' u h2, h4⟩

/-- C28: if the requested prefixes of required URIs differ (and none is empty where a prefix is needed), all get what they request. -/
theorem C28_requests_granted (b : NsBuilder) (hb : b.Ok)
    (hd : (b.filter fun x => x.2.required).Pairwise fun x y => x.2.requested ≠ y.2.requested)
    (hn : ∀ x ∈ b, x.2.required = true → x.2.needsPrefix = true → x.2.requested ≠ "") {n : Namespaces} (h : b.finalize = .ok n)
    (u : String) (e : NsEntry) (hu : SMap.get b u = some e) (hr : e.required = true) : n.byPrefix.get e.requested = some u := by
  obtain ⟨m, h1, h2, h3⟩ := finalize_spec b hb
  rw [h] at h1; simp only [Except.ok.injEq] at h1; subst h1
  unfold NsBuilder.finalize at h
  obtain ⟨m1, l1, k1, k2, k3, k4, k5⟩ := passRequired_spec [] b (by simp [SMap.keys]) hb.fresh
  have hl := passRequired_granted [] b (fun _ _ _ => rfl) hd hn m1 l1 k1
  rw [k1] at h
  simp only [Except.ok.injEq] at h
  have hra : ∀ x ∈ l1, x.2.required = false → x.2.assigned = none := by
    intro x hx hxr
    have := k5 x hx
    simpa [hxr] using this
  obtain ⟨m2, l2, j1, -, -, -, -, j6⟩ := passInherited_spec m1 l1 k3 hra
  rw [j1] at h
  subst h
  refine (h2.iff _ _).mpr ⟨{ e with assigned := some e.requested }, ?_, rfl⟩
  apply SMap.mem_get h2.urls
  apply j6 (u, { e with assigned := some e.requested }) _ hr
  rw [hl]
  exact List.mem_map.mpr ⟨(u, e), SMap.get_mem hu, by simp [hr]⟩

/-- C28: in no run does the search for a prefix go on for ever (or longer than allowed by `C28_search_short`). -/
theorem C28_search_ends (dbg : Bool) (sink : Sink) (name : EName) (attrs : AttrProg) (children : Prog [.writer false]) :
    serializeTo dbg sink name attrs children ≠ .error .fuel := serializeTo_noFuel dbg sink name attrs children

/-- Two URIs ask for `p`, a third for `p2`; a merely inherited one asks for `p` too. -/
def ExW.b : NsBuilder :=
  [("urn:0", ⟨"p", none, false, false⟩), ("urn:a", ⟨"p", none, true, false⟩), ("urn:b", ⟨"p2", none, true, false⟩),
   ("urn:c", ⟨"p", none, true, true⟩), ("urn:d", ⟨"", none, true, true⟩)]

theorem ExW.b_ok : NsBuilder.Ok ExW.b := by
  refine ⟨by decide, ?_⟩
  intro x hx
  simp only [ExW.b, List.mem_cons, List.not_mem_nil, or_false] at hx
  rcases hx with rfl | rfl | rfl | rfl | rfl <;> rfl

/-- `urn:b` gets the prefix it does without the merely inherited `urn:0`. -/
example (p : String) : ∃ n n', ExW.b.finalize = .ok n ∧ NsBuilder.finalize (ExW.b.filter fun x => x.2.required) = .ok n' ∧
    (n.byPrefix.get p = some "urn:b" ↔ n'.byPrefix.get p = some "urn:b") :=
  ⟨_, _, rfl, rfl, C28_inherited_irrelevant ExW.b ExW.b_ok ⟨by decide, fun x hx => ExW.b_ok.2 x (List.mem_filter.mp hx).1⟩ rfl rfl "urn:b" p _ rfl rfl⟩

example : ∃ n, NsBuilder.finalize [("urn:0", ⟨"p", none, false, false⟩), ("urn:a", ⟨"p", none, true, true⟩), ("urn:b", ⟨"", none, true, false⟩)] = .ok n ∧
    n.byPrefix.get "p" = some "urn:a" ∧ n.byPrefix.get "" = some "urn:b" := by
  have ok : NsBuilder.Ok [("urn:0", ⟨"p", none, false, false⟩), ("urn:a", ⟨"p", none, true, true⟩), ("urn:b", ⟨"", none, true, false⟩)] := by
    refine ⟨by decide, ?_⟩
    intro x hx
    simp only [List.mem_cons, List.not_mem_nil, or_false] at hx
    rcases hx with rfl | rfl | rfl <;> rfl
  have hd : List.Pairwise (fun x y : String × NsEntry => x.2.requested ≠ y.2.requested)
      ([("urn:0", ⟨"p", none, false, false⟩), ("urn:a", ⟨"p", none, true, true⟩), ("urn:b", ⟨"", none, true, false⟩)].filter fun x : String × NsEntry => x.2.required) := by
    decide
  have hn : ∀ x ∈ [("urn:0", (⟨"p", none, false, false⟩ : NsEntry)), ("urn:a", ⟨"p", none, true, true⟩), ("urn:b", ⟨"", none, true, false⟩)],
      x.2.required = true → x.2.needsPrefix = true → x.2.requested ≠ "" := by decide
  exact ⟨_, rfl, C28_requests_granted _ ok hd hn rfl "urn:a" _ rfl rfl, C28_requests_granted _ ok hd hn rfl "urn:b" _ rfl rfl⟩

example : ∃ n, ExW.b.finalize = .ok n ∧ n.byPrefix = [("ns1", "urn:d"), ("p", "urn:a"), ("p2", "urn:b"), ("p3", "urn:c")] := by
  refine ⟨_, rfl, ?_⟩
  rfl

/-! ### C29 -/

/-- C29, attributes: every written attribute name means, where it stands, the name asked for. -/
theorem C29_attributes {dbg : Bool} {sink : Sink} {name : EName} {attrs : AttrProg} {children : Prog [.writer false]}
    (ha : AttrProg.Mappings (MappingOk dbg) attrs) (hc : Prog.Mappings (MappingOk dbg) children) {s : WState} {r : Except SErr Unit}
    (h : serializeTo dbg sink name attrs children = .ok (s, r)) (pre : List Step) (q : WName) (as : List (WName × String)) (ns : SMap String)
    (asked : Option (EName × List (EName × String))) (post : List Step)
    (hs : s.steps = pre ++ .wrote (.start q as ns) asked :: post) :
    ∃ n l, asked = some (n, l) ∧
      as.map (fun a => (resolveAttr (ns :: openScopes (pre.filterMap stepEvent) []) a.1, a.2)) = l.map fun a => (some a.1, a.2) := by
  have hsteps := serializeTo_steps (nd := false) (AttrProg.Mappings.mono (fun p u h => ⟨h, by simp⟩) _ ha)
    (Prog.Mappings.mono (fun p u h => ⟨h, by simp⟩) _ hc) h
  have := hsteps (.wrote (.start q as ns) asked) (by rw [hs]; simp)
  cases asked with
  | none => exact this.elim
  | some x => exact ⟨x.1, x.2, rfl, this.attrs _⟩

/-- C29, elements: a written element name means, where it stands, the name asked for, exactly if that is in a namespace or no
enclosing element has a default namespace (`C29_unprefixed_counterexample`). -/
theorem C29_elements_iff {dbg : Bool} {sink : Sink} {name : EName} {attrs : AttrProg} {children : Prog [.writer false]}
    (ha : AttrProg.Mappings (MappingOk dbg) attrs) (hc : Prog.Mappings (MappingOk dbg) children) {s : WState} {r : Except SErr Unit}
    (h : serializeTo dbg sink name attrs children = .ok (s, r)) (pre : List Step) (q : WName) (as : List (WName × String)) (ns : SMap String)
    (asked : Option (EName × List (EName × String))) (post : List Step)
    (hs : s.steps = pre ++ .wrote (.start q as ns) asked :: post) :
    ∃ n l, asked = some (n, l) ∧ (resolveElem (ns :: openScopes (pre.filterMap stepEvent) []) q = some n ↔
      n.ns ≠ "" ∨ lookupPrefix (openScopes (pre.filterMap stepEvent) []) "" = none) := by
  have hsteps := serializeTo_steps (nd := false) (AttrProg.Mappings.mono (fun p u h => ⟨h, by simp⟩) _ ha)
    (Prog.Mappings.mono (fun p u h => ⟨h, by simp⟩) _ hc) h
  have hok := hsteps (.wrote (.start q as ns) asked) (by rw [hs]; simp)
  cases asked with
  | none => exact hok.elim
  | some x =>
    obtain ⟨n, l⟩ := x
    refine ⟨n, l, rfl, ?_⟩
    have hok : StartOk false q as ns n l := hok
    by_cases hns : n.ns = ""
    · obtain ⟨rfl, hd⟩ := hok.plain hns
      have hne : ∀ m ∈ openScopes (pre.filterMap stepEvent) [], ∀ p, SMap.get m p ≠ some "" := by
        have key : ∀ (es : List WEvent) (sc : List (SMap String)), (∀ m ∈ sc, ∀ p, SMap.get m p ≠ some "") →
            (∀ q as ns, WEvent.start q as ns ∈ es → ∀ p, SMap.get ns p ≠ some "") → ∀ m ∈ openScopes es sc, ∀ p, SMap.get m p ≠ some "" := by
          intro es
          induction es with
          | nil => intro sc h _; exact h
          | cons e es ih =>
            intro sc h1 h2
            have h2' : ∀ q as ns, WEvent.start q as ns ∈ es → ∀ p, SMap.get ns p ≠ some "" :=
              fun q as ns hm => h2 q as ns (List.mem_cons_of_mem _ hm)
            cases e with
            | start q as ns =>
              refine ih _ ?_ h2'
              intro m hm
              rcases List.mem_cons.mp hm with rfl | hm
              · exact h2 q as m List.mem_cons_self
              · exact h1 m hm
            | chars s => exact ih _ h1 h2'
            | stop => exact ih _ (fun m hm => h1 m (List.mem_of_mem_tail hm)) h2'
        refine key _ _ (by simp) ?_
        intro q as ns hm
        obtain ⟨n, l, hok⟩ := steps_start (xs := pre) (nd := false) (fun x hx => hsteps x (by rw [hs]; simp [hx])) hm
        exact hok.nonEmpty
      simp only [resolveElem, lookupPrefix, List.findSome?_cons, hd, Option.some.injEq]
      cases n
      simp only at hns
      subst hns
      simp only [EName.mk.injEq, and_true, ne_eq, not_true, false_or]
      cases hl : List.findSome? (fun m => SMap.get m "") (openScopes (pre.filterMap stepEvent) []) with
      | none => simp
      | some u =>
        simp only [Option.getD_some, reduceCtorEq, iff_false]
        rintro rfl
        obtain ⟨m, hm, hme⟩ := List.exists_of_findSome?_eq_some hl
        exact hne m hm _ hme
    · exact ⟨fun _ => .inl hns, fun _ => hok.elem _ hns⟩

/-- Both for the second start tag of the example. -/
example : ∃ s, ExW.doc = .ok (s, .ok ()) ∧ ∃ pre q as ns asked post, s.steps = pre ++ .wrote (.start q as ns) asked :: post ∧ pre.length = 1 :=
  ⟨_, rfl, [_], _, _, _, _, _, rfl, rfl⟩

/-- C29, for the whole document: what a reader sees that resolves the names is what the implementation asked for, exactly if no
element in no namespace is written where a default namespace is in force. -/
theorem C29_document_iff {dbg : Bool} {sink : Sink} {name : EName} {attrs : AttrProg} {children : Prog [.writer false]}
    (ha : AttrProg.Mappings (MappingOk dbg) attrs) (hc : Prog.Mappings (MappingOk dbg) children)
    {s : WState} (h : serializeTo dbg sink name attrs children = .ok (s, .ok ())) :
    ∃ es, documentAsked name attrs children = some es ∧ (resolveEvents s.out [] = some es ↔
      ∀ pre q as ns n l post, s.steps = pre ++ .wrote (.start q as ns) (some (n, l)) :: post → n.ns = "" →
        lookupPrefix (openScopes (pre.filterMap stepEvent) []) "" = none) := by
  have hsteps := serializeTo_steps (nd := false) (AttrProg.Mappings.mono (fun p u h => ⟨h, by simp⟩) _ ha)
    (Prog.Mappings.mono (fun p u h => ⟨h, by simp⟩) _ hc) h
  obtain ⟨es, h1, h2⟩ := serializeTo_asks h
  refine ⟨es, h1, ?_⟩
  rw [(serializeTo_sticky h).out, resolveEvents_iff s.steps es h2 hsteps [] (by simp), plainSteps_iff]

/-- C29: an implementation that declares the namespaces it uses, does not leak writers, and does not write elements in no namespace inside
elements for which it asked for a default namespace, gets the document it asked for.  What is missing are those elements. -/
theorem C29_declared_partial {dbg : Bool} {sink : Sink} {name : EName} {attrs : AttrProg} {children : Prog [.writer false]}
    (hd : DocumentDeclared name attrs children) (hf : NoForget children) {s : WState}
    (h : serializeTo dbg sink name attrs children = .ok (s, .ok ())) :
    ∃ es, documentAsked name attrs children = some es ∧ resolveEvents s.out [] = some es := by
  have hM : ∀ p u, MayDeclare p u → MappingOk dbg p u := fun p u h => ⟨h.2.1, .inr h.1⟩
  obtain ⟨r, d, hc⟩ := documentDeclared_children hd h
  obtain ⟨es, h1, h2⟩ := C29_document_iff (AttrProg.Declared.mappings hM _ _ _ hd) (Prog.Declared.mappings hM _ _ hc) h
  exact ⟨es, h1, h2.mpr ((plainSteps_iff _ _).mp (serializeTo_plain hd hf h))⟩

/-- C29, for the whole document: what a reader sees that resolves the names is what the implementation asked for, if no element is
in no namespace or no default namespace is asked for.  (Also with leaked writers.) -/
theorem C29_document_partial {dbg nd : Bool} {sink : Sink} {name : EName} {attrs : AttrProg} {children : Prog [.writer false]}
    (ha : AttrProg.Mappings (MappingOk dbg) attrs) (hc : Prog.Mappings (MappingOk dbg) children)
    (hnd : nd = true → AttrProg.Mappings (fun p _ => p ≠ "") attrs ∧ Prog.Mappings (fun p _ => p ≠ "") children)
    {s : WState} (h : serializeTo dbg sink name attrs children = .ok (s, .ok ())) :
    ∃ es, documentAsked name attrs children = some es ∧
      ((nd = true ∨ ∀ n l, EEvent.start n l ∈ es → n.ns ≠ "") → resolveEvents s.out [] = some es) := by
  have hst := serializeTo_sticky h
  have ha' : AttrProg.Mappings (MapOk dbg nd) attrs := by
    cases nd with
    | false => exact AttrProg.Mappings.mono (fun p u h => ⟨h, by simp⟩) _ ha
    | true => exact AttrProg.Mappings.mono (fun p u h => ⟨h.1, fun _ => h.2⟩) _ (AttrProg.Mappings.and _ ha (hnd rfl).1)
  have hc' : Prog.Mappings (MapOk dbg nd) children := by
    cases nd with
    | false => exact Prog.Mappings.mono (fun p u h => ⟨h, by simp⟩) _ hc
    | true => exact Prog.Mappings.mono (fun p u h => ⟨h.1, fun _ => h.2⟩) _ (Prog.Mappings.and _ hc (hnd rfl).2)
  have hsteps := serializeTo_steps ha' hc' h
  obtain ⟨es, h1, h2⟩ := serializeTo_asks h
  refine ⟨es, h1, ?_⟩
  intro hcond
  rw [hst.out]
  apply resolveEvents_steps (nd := nd) s.steps es h2 hsteps []
  rcases hcond with hcond | hcond
  · right
    refine ⟨rfl, ?_⟩
    intro q as ns hm
    obtain ⟨n, l, hok⟩ := steps_start hsteps hm
    exact hok.noDefault hcond
  · exact .inl hcond

/-- The example: both a default namespace and conflicting prefixes are asked for, no element is in no namespace. -/
example : AttrProg.Mappings (MappingOk true) ExW.attrs ∧ Prog.Mappings (MappingOk true) ExW.children ∧
    documentAsked (ExW.n "urn:d" "r") ExW.attrs ExW.children =
      some [.start (ExW.n "urn:d" "r") [(ExW.n "urn:d" "a", "1"), (ExW.n "" "a", "3")],
        .start (ExW.n "urn:u" "c") [(ExW.n "urn:v" "x", "y")], .chars "text", .stop, .stop] ∧
    resolveEvents ExW.docOut [] = documentAsked (ExW.n "urn:d" "r") ExW.attrs ExW.children :=
  ⟨AttrProg.Mappings.mono (fun _ _ h => h.1) _ (ExW.attrs_ok true false rfl),
    Prog.Mappings.mono (fun _ _ h => h.1) _ (ExW.children_ok true false), rfl, rfl⟩

/-- Elements in no namespace before and after, but not in, an element with a default namespace: `<r><a xmlns="urn:u"/><b/></r>`. -/
def ExW.mixed : Prog [.writer false] :=
  .element (n "urn:u" "a") (.namespace "" "urn:u" (.start (.finish fun _ =>
    .element (n "" "b") (.start (.finish fun r => .ret r) fun e => .ret (.error e))) fun e => .ret (.error e)))

example : DocumentDeclared (ExW.n "" "r") (.ret (.ok ())) ExW.mixed ∧ NoForget ExW.mixed ∧
    ∃ s, serializeTo true ExW.fine (ExW.n "" "r") (.ret (.ok ())) ExW.mixed = .ok (s, .ok ()) ∧
      s.out = [.start ⟨none, "r"⟩ [] [], .start ⟨none, "a"⟩ [] [("", "urn:u")], .stop, .start ⟨none, "b"⟩ [] [], .stop, .stop] := by
  refine ⟨⟨.inr (.inr ⟨rfl, rfl⟩), ⟨by decide, by decide, by decide⟩, .inr (.inl (by simp [ExW.n])),
    fun _ => ⟨.inr (.inr ⟨rfl, rfl⟩), fun _ => trivial, fun _ => trivial⟩, fun _ => trivial⟩, by simp [NoForget, ExW.mixed], _, rfl, rfl⟩

/-- C29 does not hold for elements in no namespace below a default namespace, if the mapping of that namespace is asked for with
another prefix: `<r xmlns="urn:u"><c xmlns:p="urn:u"/></r>` is written for `c` in no namespace. -/
theorem C29_unprefixed_counterexample : ∃ (attrs : AttrProg) (children : Prog [.writer false]) (s : WState) (es es' : List EEvent),
    AttrProg.Mappings (MappingOk true) attrs ∧ Prog.Mappings (MappingOk true) children ∧
    serializeTo true ExW.fine (ExW.n "urn:u" "r") attrs children = .ok (s, .ok ()) ∧
    documentAsked (ExW.n "urn:u" "r") attrs children = some es ∧ resolveEvents s.out [] = some es' ∧ es ≠ es' := by
  refine ⟨.namespace "" "urn:u" (.ret (.ok ())), .element (ExW.n "" "c") (.namespace "p" "urn:u"
    (.start (.finish fun r => .ret r) fun e => .ret (.error e))), _, _, _, ?_, ?_, rfl, rfl, rfl, ?_⟩
  · exact ⟨⟨by decide, .inr (by decide)⟩, trivial⟩
  · exact ⟨⟨by decide, .inr (by decide)⟩, fun _ => trivial, fun _ => trivial⟩
  · decide

/-! ### C30 -/

/-- C30: an attribute in a namespace is written with a prefix (and its local name and value), one in no namespace without. -/
theorem C30_prefixed {dbg : Bool} {sink : Sink} {name : EName} {attrs : AttrProg} {children : Prog [.writer false]}
    {s : WState} {r : Except SErr Unit}
    (h : serializeTo dbg sink name attrs children = .ok (s, r)) (pre : List Step) (q : WName) (as : List (WName × String)) (ns : SMap String)
    (n : EName) (l : List (EName × String)) (post : List Step)
    (hs : s.steps = pre ++ .wrote (.start q as ns) (some (n, l)) :: post)
    (i : Nat) (w : WName × String) (a : EName × String) (hw : as[i]? = some w) (hl : l[i]? = some a) :
    w.2 = a.2 ∧ w.1.loc = a.1.loc ∧ (a.1.ns = "" → w.1.pfx = none) ∧ (a.1.ns ≠ "" → ∃ p, w.1.pfx = some p ∧ p ≠ "") :=
  (prefixedInv dbg).serializeTo (AttrProg.Mappings.trivial _) (Prog.Mappings.trivial _) h (.wrote (.start q as ns) (some (n, l)))
    (by rw [hs]; simp) i w a hw hl

/-- C30: the prefix is there "always": an implementation that declares its namespaces, attributes' before use, never panics.  The default
namespace may be used for attributes, if no elements in no namespace are inside. -/
theorem C30_never_panics (dbg : Bool) (sink : Sink) (name : EName) (attrs : AttrProg) (children : Prog [.writer false])
    (h : DocumentDeclared name attrs children) : ∃ s r, serializeTo dbg sink name attrs children = .ok (s, r) :=
  serializeTo_total dbg sink name attrs children h

/-- The example uses the default namespace for an attribute. -/
example : DocumentDeclared (ExW.n "urn:d" "r") ExW.attrs ExW.children := by
  refine ⟨⟨by decide, by decide, by decide⟩, ⟨by decide, by decide, by decide⟩, ?_⟩
  refine ⟨.inr (.inr (.inr (by simp [ExW.n]))), fun _ => ⟨.inr (.inr (.inr (by simp [ExW.n]))), fun _ => ⟨.inl rfl, ?_⟩⟩⟩
  intro res
  cases res with
  | error e => trivial
  | ok u =>
    refine ⟨.inr (.inl (by simp [ExW.n])), ?_⟩
    refine ⟨⟨by decide, by decide, by decide⟩, ?_⟩
    refine ⟨.inr (.inr (.inr (by simp [ExW.n]))), fun _ => ⟨.inr (.inl (by simp [ExW.n])), fun _ _ => trivial, fun _ => trivial⟩⟩

/-- The order matters: adding the attribute before the mapping panics (the code keeps no track of namespaces not mapped yet), if the
mapping is the default namespace. -/
theorem C30_late_mapping_counterexample :
    serializeTo true ExW.fine (ExW.n "urn:u" "r") (.attribute (ExW.n "urn:u" "a") "1" fun _ => .namespace "" "urn:u" (.ret (.ok ())))
      (.ret (.ok ())) = .error .panic := rfl

end SX
