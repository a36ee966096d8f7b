import Verif.Proof.Unwind

/-
Every run with panics has a result; programs that catch none; fields.
-/
namespace SX.Unwind
open SX.Open Spec.Unwind
open SX.Open (Ret)

/-! ### Every run has a result -/

def OnlyPanic {α : Type} (x : Except Fault α) : Prop := ∀ f, x = .error f → f = .panic

theorem resolveElement_onlyPanic (n : Namespaces) (name : EName) : OnlyPanic (n.resolveElement name) := by
  intro f
  unfold Namespaces.resolveElement
  simp only
  repeat' split
  all_goals (intro h; simp at h; try exact h.symm)

theorem resolveAttribute_onlyPanic (n : Namespaces) (name : EName) : OnlyPanic (n.resolveAttribute name) := by
  intro f
  unfold Namespaces.resolveAttribute
  repeat' split
  all_goals (intro h; simp at h; try exact h.symm)

theorem resolveAttrs_onlyPanic (n : Namespaces) (l : List (EName × String)) : OnlyPanic (SX.resolveAttrs n l) := by
  induction l with
  | nil => intro f h; simp [SX.resolveAttrs] at h
  | cons a l ih =>
    intro f
    unfold SX.resolveAttrs
    split
    · rename_i g hg
      intro h
      simp only [Except.error.injEq] at h
      subst h
      exact resolveAttribute_onlyPanic n _ _ hg
    · split
      · rename_i g hg
        intro h
        simp only [Except.error.injEq] at h
        subst h
        exact ih _ hg
      · intro h; simp at h

theorem start_total (sink : PSink) {b : Builder} (hb : b.ns.Ok) (s : UState) : ∃ s' r, Unwind.start sink b s = .ok (s', r) := by
  obtain ⟨n, h1, -⟩ := finalize_spec b.ns hb
  unfold Unwind.start
  simp only [h1]
  cases hq : n.resolveElement b.name with
  | error f => have := resolveElement_onlyPanic _ _ _ hq; subst this; exact ⟨_, _, rfl⟩
  | ok q =>
    cases ha : SX.resolveAttrs n b.attrs with
    | error f => have := resolveAttrs_onlyPanic _ _ _ ha; subst this; exact ⟨_, _, rfl⟩
    | ok attrs =>
      simp only
      split <;> exact ⟨_, _, rfl⟩

theorem namespace'_total (dbg : Bool) {b : Builder} (hb : b.ns.Ok) (p u : String) :
    ∃ b' r, namespace' dbg b p u = .ok (b', r) ∧ b'.ns.Ok := by
  obtain ⟨-, h2⟩ := builder_ok_namespace hb dbg p u
  unfold namespace'
  cases hn : b.namespace dbg p u with
  | ok b' => exact ⟨_, _, rfl, h2 _ hn⟩
  | error f =>
    have : f = .panic := by
      unfold Builder.namespace at hn
      split at hn
      · rename_i g hg
        simp only [Except.error.injEq] at hn
        subst hn
        unfold NsBuilder.insert at hg
        split at hg
        · simp at hg; exact hg.symm
        · split at hg <;> simp at hg
      · simp at hn
    subst this
    exact ⟨_, _, rfl, hb⟩

theorem attribute'_total {b : Builder} (hb : b.ns.Ok) (n : EName) (v : String) :
    ∃ b' r, attribute' b n v = .ok (b', r) ∧ b'.ns.Ok := by
  obtain ⟨-, h2⟩ := builder_ok_attribute hb n v
  unfold attribute'
  cases hn : b.attribute n v with
  | ok x =>
    obtain ⟨b', r⟩ := x
    cases r <;> exact ⟨_, _, rfl, h2 _ _ hn⟩
  | error f =>
    have : f = .panic := by
      unfold Builder.attribute at hn
      split at hn
      · split at hn
        · simp at hn; exact hn.symm
        · simp at hn
      · simp at hn
    subst this
    exact ⟨_, _, rfl, hb⟩

theorem UAttr.run_total (dbg : Bool) (p : UAttr) (b : Builder) (hb : b.ns.Ok) : ∃ b' r, p.run dbg b = .ok (b', r) ∧ b'.ns.Ok := by
  induction p generalizing b with
  | ret r => cases r <;> exact ⟨_, _, rfl, hb⟩
  | unwind => exact ⟨_, _, rfl, hb⟩
  | «namespace» p u k ih =>
    obtain ⟨b', r, h1, h2⟩ := namespace'_total dbg hb p u
    simp only [UAttr.run, h1]
    exact ih _ _ h2
  | «attribute» n v k ih =>
    obtain ⟨b', r, h1, h2⟩ := attribute'_total hb n v
    simp only [UAttr.run, h1]
    exact ih _ _ h2

theorem UProg.run_total (dbg : Bool) (sink : PSink) {hs : List Handle} (p : UProg hs) (st : HStates hs)
    (hst : st.All (fun b => b.ns.Ok) (fun _ => True)) (s : UState) : ∃ s' r, p.run dbg sink st s = .ok (s', r) := by
  induction p generalizing s with
  | ret r => cases r <;> exact ⟨_, _, rfl⟩
  | unwind => exact ⟨_, _, rfl⟩
  | element name k ih =>
    cases st with | cons n rest =>
    exact ih _ (all_builder (b := Builder.new name (Namespaces.child n name.ns)) (Namespaces.child_ok _ _) hst) s
  | text t k ih => simp only [UProg.run]; exact ih _ _ hst _
  | «namespace» p u k ih =>
    cases st with | cons b rest =>
    obtain ⟨b', r, h1, h2⟩ := namespace'_total dbg (b := b) hst.1 p u
    simp only [UProg.run, h1]
    exact ih _ _ (all_builder (b := b') h2 hst.2) s
  | «attribute» a v k ih =>
    cases st with | cons b rest =>
    obtain ⟨b', r, h1, h2⟩ := attribute'_total (b := b) hst.1 a v
    simp only [UProg.run, h1]
    exact ih _ _ (all_builder (b := b') h2 hst.2) s
  | start ok fail pn ih1 ih2 ih3 =>
    cases st with | cons b rest =>
    obtain ⟨s', r, h1⟩ := start_total sink (b := b) hst.1 s
    cases r with
    | ok n => simp only [UProg.run, h1]; exact ih1 _ (all_writer trivial hst.2) _
    | err e => simp only [UProg.run, h1]; exact ih2 _ _ hst.2 _
    | panic => simp only [UProg.run, h1]; exact ih3 _ hst.2 _
  | finish k ih => cases st with | cons b rest => simp only [UProg.run]; exact ih _ _ hst.2 _
  | dropBuilder k ih => cases st with | cons b rest => exact ih _ hst.2 _
  | dropWriter k ih => cases st with | cons b rest => exact ih _ hst.2 _
  | forgetBuilder k ih => cases st with | cons b rest => exact ih _ hst.2 _
  | forgetWriter k ih => cases st with | cons b rest => exact ih _ hst.2 _

theorem serializeTo_total (dbg : Bool) (sink : PSink) (name : EName) (attrs : UAttr) (children : UProg [.writer false]) :
    ∃ s r, serializeTo dbg sink name attrs children = .ok (s, r) := by
  obtain ⟨b, r, h1, h2⟩ := UAttr.run_total dbg attrs (Builder.new name []) NsBuilder.Ok.nil
  unfold serializeTo
  simp only [h1]
  cases r with
  | err e => exact ⟨_, _, rfl⟩
  | panic => exact ⟨_, _, rfl⟩
  | ok u =>
    obtain ⟨s1, r1, h3⟩ := start_total sink h2 { w := { out := [], poison := none, steps := [] }, tried := [], answers := [] }
    simp only [h3]
    cases r1 with
    | err e => exact ⟨_, _, rfl⟩
    | panic => exact ⟨_, _, rfl⟩
    | ok n =>
      obtain ⟨s2, r2, h4⟩ := UProg.run_total dbg sink children (.cons (h := .writer false) n .nil) (all_writer trivial all_nil) s1
      simp only [h4]
      cases r2 <;> exact ⟨_, _, rfl⟩

/-! ### The record of what happened -/

theorem write_sticky {sink : PSink} {s : UState} (h : Sticky s.w) (hc : Counted s) (e : WEvent) (a) : Sticky (s.write sink e a).1.w := by
  rcases hw : s.write sink e a with ⟨s1, r⟩
  have := write_replay hc hw (List.prefix_refl _)
  cases r with
  | panic => simp only at this; rw [this.1]; exact h
  | ok u => simp only at this; have h2 := h.write (replay s1.answers) e a; rw [this] at h2; exact h2
  | err x => simp only at this; have h2 := h.write (replay s1.answers) e a; rw [this] at h2; exact h2

theorem start_sticky {sink : PSink} {b : Builder} {s s' : UState} {r : Ret SErr Namespaces} (h : Unwind.start sink b s = .ok (s', r))
    (hs : Sticky s.w) (hc : Counted s) : Sticky s'.w := by
  rcases start_write h with ⟨-, rfl⟩ | ⟨n, q, attrs, r', -, -, -, hw, -⟩
  · exact hs
  · have := write_sticky (sink := sink) hs hc (.start q attrs n.byPrefix) (some (b.name, b.attrs))
    rw [hw] at this
    exact this

/-- Panic or not, the record of a run is that of a run without panics. -/
theorem run_sticky {dbg : Bool} {sink : PSink} {hs : List Handle} {p : UProg hs} {st : HStates hs} {s s' : UState} {r : Ret SErr Unit}
    (h : p.run dbg sink st s = .ok (s', r)) (hs : Sticky s.w) (hc : Counted s) : Sticky s'.w :=
  Prog.run_inv dbg (replay s'.answers) Sticky (fun _ _ _ h => h.write ..) (fun _ _ h => h.poisonWith _) _ _ _ _ _
    (resolve_run dbg sink s'.answers p st s s' r h hc (List.prefix_refl _)) hs

theorem serializeTo_sticky {dbg : Bool} {sink : PSink} {name : EName} {attrs : UAttr} {children : UProg [.writer false]} {s : UState}
    {r : Ret SErr Unit} (h : serializeTo dbg sink name attrs children = .ok (s, r)) : Sticky s.w := by
  have h0 : Sticky { out := [], poison := none, steps := [] } := ⟨rfl, fun _ => by simp, fun _ h => by simp at h⟩
  unfold serializeTo at h
  simp only at h
  split at h
  · simp at h
  · simp only [Except.ok.injEq, Prod.mk.injEq] at h; obtain ⟨rfl, -⟩ := h; exact h0.poisonWith _
  · simp only [Except.ok.injEq, Prod.mk.injEq] at h; obtain ⟨rfl, -⟩ := h; exact h0.poisonWith _
  · split at h
    · simp at h
    · rename_i hs; simp only [Except.ok.injEq, Prod.mk.injEq] at h; obtain ⟨rfl, -⟩ := h; exact start_sticky hs h0 counted_init
    · rename_i hs; simp only [Except.ok.injEq, Prod.mk.injEq] at h; obtain ⟨rfl, -⟩ := h; exact start_sticky hs h0 counted_init
    · rename_i hs
      have h1 := start_sticky hs h0 counted_init
      have hc1 := (start_counted hs counted_init).1
      split at h
      · simp at h
      · rename_i hk; simp only [Except.ok.injEq, Prod.mk.injEq] at h; obtain ⟨rfl, -⟩ := h; exact (run_sticky hk h1 hc1).poisonWith _
      · rename_i hk; simp only [Except.ok.injEq, Prod.mk.injEq] at h; obtain ⟨rfl, -⟩ := h; exact (run_sticky hk h1 hc1).poisonWith _
      · rename_i hk
        simp only [Except.ok.injEq] at h
        have := write_sticky (sink := sink) (run_sticky hk h1 hc1) (run_answers _ _ _ _ _ _ _ hk hc1).1 .stop none
        rw [h] at this
        exact this

theorem sticky_first {s : WState} (hst : Sticky s) (pre : List Step) (x : Step) (post : List Step) (hs : s.steps = pre ++ x :: post) (e : SErr)
    (hx : Spec.stepError x = some e) (hpre : ∀ y ∈ pre, Spec.stepError y = none) :
    s.poison = some e ∧ (∀ y ∈ post, Spec.StuckWith e y) ∧ s.out = pre.filterMap Spec.stepEvent := by
  cases hp : s.poison with
  | none =>
    have := hst.clean hp x (by rw [hs]; simp)
    rw [hx] at this
    simp at this
  | some e' =>
    obtain ⟨pre', x', post', h1, h2, h3, h4⟩ := hst.stuck e' hp
    have heq : pre' = pre ∧ x' = x ∧ post' = post := by
      rw [hs] at h1
      clear hs hst h4
      induction pre generalizing pre' with
      | nil =>
        cases pre' with
        | nil =>
          simp only [List.nil_append, List.cons.injEq] at h1
          exact ⟨rfl, h1.1.symm, h1.2.symm⟩
        | cons y pre' =>
          simp only [List.nil_append, List.cons_append, List.cons.injEq] at h1
          have := h2 y (by simp)
          rw [← h1.1, hx] at this
          simp at this
      | cons z pre ih =>
        cases pre' with
        | nil =>
          simp only [List.nil_append, List.cons_append, List.cons.injEq] at h1
          have := hpre z (by simp)
          rw [h1.1, h3] at this
          simp at this
        | cons y pre' =>
          simp only [List.cons_append, List.cons.injEq] at h1
          obtain ⟨k1, k2, k3⟩ := ih (fun y hy => hpre y (List.mem_cons_of_mem _ hy)) pre'
            h1.2 (fun y hy => h2 y (List.mem_cons_of_mem _ hy))
          exact ⟨by rw [k1, h1.1], k2, k3⟩
    obtain ⟨rfl, rfl, rfl⟩ := heq
    rw [hx] at h3
    simp only [Option.some.injEq] at h3
    subst h3
    refine ⟨rfl, h4, ?_⟩
    rw [hst.out, hs]
    have hno : ∀ l : List Step, (∀ y ∈ l, Spec.stepEvent y = none) → l.filterMap Spec.stepEvent = [] := fun l hl => List.filterMap_eq_nil_iff.mpr hl
    rw [List.filterMap_append, hno (x' :: post'), List.append_nil]
    intro y hy
    rcases List.mem_cons.mp hy with rfl | hy
    · cases y with
      | wrote _ _ => simp [Spec.stepError] at hx
      | failed _ _ => rfl
      | abandoned _ => rfl
    · have := h4 y hy
      cases y with
      | wrote _ _ => exact this.elim
      | failed _ _ => rfl
      | abandoned _ => rfl

theorem write_panics {sink : PSink} {s s' : UState} {e : WEvent} {a} (h : s.write sink e a = (s', .panic)) : s'.w = s.w ∧ sink s.tried e = .panics := by
  unfold UState.write at h
  split at h
  · simp at h
  · split at h
    · rename_i hx; simp only [Prod.mk.injEq, and_true] at h; rw [← h]; exact ⟨rfl, hx⟩
    · simp at h
    · simp at h

/-! ### Programs that catch nothing -/

/-- The sink was not asked about anything that is not in the output. -/
def Even (s : UState) : Prop := s.w.poison = none → s.tried = s.w.out

def lift : Except SErr Unit → Ret SErr Unit
  | .ok () => .ok ()
  | .error e => .err e

theorem write_calm (sink : Sink) (s : UState) (hs : Even s) (e : WEvent) (a) :
    ∃ s', s.write (calm sink) e a = (s', lift (s.w.write sink e a).2) ∧ s'.w = (s.w.write sink e a).1 ∧ Even s' := by
  obtain ⟨⟨out, poison, steps⟩, tried, answers⟩ := s
  unfold UState.write WState.write
  cases poison with
  | some p => exact ⟨_, rfl, rfl, fun h => by simp at h⟩
  | none =>
    have : tried = out := hs rfl
    subst this
    simp only [calm]
    cases sink tried e with
    | none => exact ⟨_, rfl, rfl, fun _ => rfl⟩
    | some m => exact ⟨_, rfl, rfl, fun h => by simp at h⟩

theorem start_calm (sink : Sink) (b : Builder) (s : UState) (hs : Even s) :
    match Builder.start sink b s.w with
    | .error .panic => Unwind.start (calm sink) b s = .ok (s, .panic)
    | .error f => Unwind.start (calm sink) b s = .error f
    | .ok (w, .ok n) => ∃ s', Unwind.start (calm sink) b s = .ok (s', .ok n) ∧ s'.w = w ∧ Even s'
    | .ok (w, .error e) => ∃ s', Unwind.start (calm sink) b s = .ok (s', .err e) ∧ s'.w = w ∧ Even s' := by
  unfold Builder.start Unwind.start
  cases b.ns.finalize with
  | error f => cases f <;> rfl
  | ok n =>
    simp only
    cases n.resolveElement b.name with
    | error f => cases f <;> rfl
    | ok q =>
      simp only
      cases SX.resolveAttrs n b.attrs with
      | error f => cases f <;> rfl
      | ok attrs =>
        simp only
        obtain ⟨s', h1, h2, h3⟩ := write_calm sink s hs (.start q attrs n.byPrefix) (some (b.name, b.attrs))
        rcases hw : s.w.write sink (.start q attrs n.byPrefix) (some (b.name, b.attrs)) with ⟨w, r⟩
        rw [hw] at h1 h2
        rw [h1]
        cases r with
        | ok u => exact ⟨s', rfl, h2, h3⟩
        | error e => exact ⟨s', rfl, h2, h3⟩

theorem bail_run (dbg : Bool) (sink : PSink) {hs : List Handle} (o : Own hs) (st : HStates hs) (s : UState) :
    ∃ s', (bail o).run dbg sink st s = .ok (s', .panic) := by
  induction o generalizing s with
  | base => exact ⟨_, rfl⟩
  | builder o ih => cases st with | cons b rest => exact ih _ _
  | writer o ih => cases st with | cons b rest => exact ih _ _

/-- The same, except that a panic is a result. -/
def Same (x : Except Fault (WState × Except SErr Unit)) (y : Except Fault (UState × Ret SErr Unit)) : Prop :=
  match x with
  | .ok (w, r) => ∃ s, y = .ok (s, lift r) ∧ s.w = w ∧ Even s
  | .error .panic => ∃ s, y = .ok (s, .panic)
  | .error f => y = .error f

theorem letThroughAttr_run (dbg : Bool) (p : AttrProg) (b : Builder) :
    match p.run dbg b with
    | .ok (b', r) => (letThroughAttr p).run dbg b = .ok (b', lift r)
    | .error .panic => ∃ b', (letThroughAttr p).run dbg b = .ok (b', .panic)
    | .error f => (letThroughAttr p).run dbg b = .error f := by
  induction p generalizing b with
  | ret r => cases r <;> rfl
  | «namespace» q u k ih =>
    simp only [AttrProg.run, letThroughAttr, UAttr.run, namespace']
    cases b.namespace dbg q u with
    | error f => cases f <;> first | rfl | exact ⟨_, rfl⟩
    | ok b' => exact ih b'
  | «attribute» n v k ih =>
    simp only [AttrProg.run, letThroughAttr, UAttr.run, attribute']
    cases b.attribute n v with
    | error f => cases f <;> first | rfl | exact ⟨_, rfl⟩
    | ok x => obtain ⟨b', r⟩ := x; cases r <;> exact ih _ b'

theorem letThrough_run (dbg : Bool) (sink : Sink) {hs : List Handle} (p : Prog hs) (o : Own hs) (st : HStates hs) (s : UState) (he : Even s) :
    Same (p.run dbg sink st s.w) ((letThrough p o).run dbg (calm sink) st s) := by
  induction p generalizing s with
  | ret r => cases r <;> exact ⟨_, rfl, rfl, he⟩
  | element name k ih => cases st with | cons n rest => exact ih (.builder o) _ s he
  | text t k ih =>
    obtain ⟨s', h1, h2, h3⟩ := write_calm sink s he (.chars t) none
    rcases hw : s.w.write sink (.chars t) none with ⟨w, r⟩
    rw [hw] at h1 h2
    simp only [Prog.run, hw, letThrough, UProg.run, h1]
    have := fun r => ih r o st s' h3
    rw [h2] at this
    cases r <;> exact this _
  | «namespace» q u k ih =>
    cases st with | cons b rest =>
    simp only [Prog.run, letThrough, UProg.run, namespace']
    cases hb : Builder.namespace dbg b q u with
    | error f =>
      cases f with
      | panic => exact bail_run ..
      | ub => rfl
      | diverge => rfl
      | fuel => rfl
    | ok b' => exact ih o _ s he
  | «attribute» n v k ih =>
    cases st with | cons b rest =>
    simp only [Prog.run, letThrough, UProg.run, attribute']
    cases hb : Builder.attribute b n v with
    | error f =>
      cases f with
      | panic => exact bail_run ..
      | ub => rfl
      | diverge => rfl
      | fuel => rfl
    | ok x => obtain ⟨b', r⟩ := x; cases r <;> exact ih _ o _ s he
  | start ok fail ih1 ih2 =>
    cases o with | builder o =>
    cases st with | cons b rest =>
    have h := start_calm sink b s he
    simp only [Prog.run, letThrough, UProg.run]
    cases hb : Builder.start sink b s.w with
    | error f =>
      rw [hb] at h
      cases f with
      | panic => simp only at h; simp only [h]; exact bail_run ..
      | ub => simp only at h; simp only [h]; rfl
      | diverge => simp only at h; simp only [h]; rfl
      | fuel => simp only at h; simp only [h]; rfl
    | ok x =>
      obtain ⟨w, r⟩ := x
      rw [hb] at h
      cases r with
      | ok n =>
        obtain ⟨s', h1, h2, h3⟩ := h
        simp only [h1]
        rw [← h2]
        exact ih1 (.writer o) _ s' h3
      | error e =>
        obtain ⟨s', h1, h2, h3⟩ := h
        simp only [h1]
        rw [← h2]
        exact ih2 e o _ s' h3
  | finish k ih =>
    cases o with | writer o =>
    cases st with | cons n rest =>
    obtain ⟨s', h1, h2, h3⟩ := write_calm sink s he .stop none
    rcases hw : s.w.write sink .stop none with ⟨w, r⟩
    rw [hw] at h1 h2
    simp only [Prog.run, hw, letThrough, UProg.run, h1]
    have := fun r => ih r o rest s' h3
    rw [h2] at this
    cases r <;> exact this _
  | dropBuilder k ih =>
    cases o with | builder o => cases st with | cons b rest => exact ih o rest (s.poisonWith .builderDropped) (fun h => by simp [UState.poisonWith, WState.poisonWith] at h)
  | dropWriter k ih =>
    cases o with | writer o => cases st with | cons b rest => exact ih o rest (s.poisonWith .writerDropped) (fun h => by simp [UState.poisonWith, WState.poisonWith] at h)
  | forgetBuilder k ih => cases o with | builder o => cases st with | cons b rest => exact ih o rest s he
  | forgetWriter k ih => cases o with | writer o => cases st with | cons b rest => exact ih o rest s he

theorem serializeTo_letThrough (dbg : Bool) (sink : Sink) (name : EName) (attrs : AttrProg) (children : Prog [.writer false]) :
    Same (SX.serializeTo dbg sink name attrs children) (serializeTo dbg (calm sink) name (letThroughAttr attrs) (letThrough children .base)) := by
  have h1 := letThroughAttr_run dbg attrs (Builder.new name [])
  have hp : ∀ (s : UState) (e : SErr), Even (s.poisonWith e) := fun s e h => by simp [UState.poisonWith, WState.poisonWith] at h
  unfold SX.serializeTo serializeTo
  cases ha : attrs.run dbg (Builder.new name []) with
  | error f =>
    rw [ha] at h1
    cases f with
    | panic => obtain ⟨b', h1⟩ := h1; simp only [h1]; exact ⟨_, rfl⟩
    | ub => simp only at h1; simp only [h1]; rfl
    | diverge => simp only at h1; simp only [h1]; rfl
    | fuel => simp only at h1; simp only [h1]; rfl
  | ok x =>
    obtain ⟨b, r⟩ := x
    rw [ha] at h1
    simp only at h1
    cases r with
    | error e => simp only [h1]; exact ⟨_, rfl, rfl, hp _ _⟩
    | ok u =>
      simp only [h1, lift]
      have he : Even { w := { out := [], poison := none, steps := [] }, tried := [], answers := [] } := fun _ => rfl
      have h2 := start_calm sink b _ he
      cases hb : Builder.start sink b { out := [], poison := none, steps := [] } with
      | error f =>
        rw [hb] at h2
        cases f with
        | panic => simp only at h2; simp only [h2]; exact ⟨_, rfl⟩
        | ub => simp only at h2; simp only [h2]; rfl
        | diverge => simp only at h2; simp only [h2]; rfl
        | fuel => simp only at h2; simp only [h2]; rfl
      | ok x =>
        obtain ⟨w, r⟩ := x
        rw [hb] at h2
        cases r with
        | error e => obtain ⟨s', h3, h4, h5⟩ := h2; simp only [h3]; exact ⟨_, rfl, h4, h5⟩
        | ok n =>
          obtain ⟨s', h3, h4, h5⟩ := h2
          simp only [h3]
          subst h4
          have h6 := letThrough_run dbg sink children .base (.cons (h := .writer false) n .nil) s' h5
          cases hk : children.run dbg sink (.cons (h := .writer false) n .nil) s'.w with
          | error f =>
            rw [hk] at h6
            cases f with
            | panic => obtain ⟨s2, h6⟩ := h6; simp only [h6]; exact ⟨_, rfl⟩
            | ub => simp only [Same] at h6; simp only [h6]; rfl
            | diverge => simp only [Same] at h6; simp only [h6]; rfl
            | fuel => simp only [Same] at h6; simp only [h6]; rfl
          | ok y =>
            obtain ⟨w2, r2⟩ := y
            rw [hk] at h6
            obtain ⟨s2, h6, h7, h8⟩ := h6
            subst h7
            cases r2 with
            | error e => simp only [h6, lift]; exact ⟨_, rfl, rfl, hp _ _⟩
            | ok u =>
              simp only [h6, lift]
              obtain ⟨s3, k1, k2, k3⟩ := write_calm sink s2 h8 .stop none
              rw [k1]
              exact ⟨s3, rfl, k2, k3⟩

/-! ### Fields -/

/-- The result of the callee is handed to the caller. -/
def afterCall (dbg : Bool) (sink : PSink) {o : Bool} {hs : List Handle} (k : Ret SErr Unit → UProg (.writer o :: hs)) (rest : HStates hs) (n : Namespaces) :
    Except Fault (UState × Ret SErr Unit) → Except Fault (UState × Ret SErr Unit)
  | .error f => .error f
  | .ok (s, r) => (k r).run dbg sink (.cons (h := .writer o) n rest) s

theorem lend_run (dbg : Bool) (sink : PSink) {o : Bool} {hs : List Handle} (k : Ret SErr Unit → UProg (.writer o :: hs)) (rest : HStates hs) {l : List Handle}
    (p : UProg l) :
    ∀ {m : List Handle} (b : Lent o hs l m) (st : HStates l) (s : UState),
      (lend k p b).run dbg sink (lentState rest b st) s = afterCall dbg sink k rest (bottom b st) (p.run dbg sink st s) := by
  induction p with
  | ret r =>
    intro m b st s
    cases b with
    | base => cases st with | cons n st => cases r <;> rfl
    | up h b => exact nomatch b
  | unwind =>
    intro m b st s
    cases b with
    | base => cases st with | cons n st => rfl
    | up h b => exact nomatch b
  | element name p ih =>
    intro m b st s
    cases b with
    | base =>
      cases st with | cons n st =>
      rw [lend]
      exact ih (.up _ .base) (.cons (h := .builder) (Builder.new name (Namespaces.child n name.ns)) (.cons n st)) s
    | up h b =>
      cases st with | cons n st =>
      rw [lend]
      exact ih (.up _ (.up _ b)) (.cons (h := .builder) (Builder.new name (Namespaces.child n name.ns)) (.cons n st)) s
  | text t p ih =>
    intro m b st s
    cases b with
    | base =>
      cases st with | cons n st =>
      exact ih (s.write sink (.chars t) none).2 .base (.cons n st) (s.write sink (.chars t) none).1
    | up h b =>
      rw [lend]
      exact ih (s.write sink (.chars t) none).2 (.up _ b) st (s.write sink (.chars t) none).1
  | «namespace» q u p ih =>
    intro m b st s
    cases b with
    | up h b =>
      cases st with | cons n st =>
      show UProg.run dbg sink (.namespace q u fun r => lend k (p r) (.up _ b)) (.cons n (lentState rest b st)) s = _
      unfold UProg.run
      cases hn : namespace' dbg n q u with
      | error f => simp only [hn]; rfl
      | ok x => obtain ⟨b', r⟩ := x; simp only [hn]; exact ih r (.up _ b) (.cons (h := .builder) b' st) s
  | «attribute» n v p ih =>
    intro m b st s
    cases b with
    | up h b =>
      cases st with | cons bd st =>
      show UProg.run dbg sink (.attribute n v fun r => lend k (p r) (.up _ b)) (.cons bd (lentState rest b st)) s = _
      unfold UProg.run
      cases hn : attribute' bd n v with
      | error f => simp only [hn]; rfl
      | ok x => obtain ⟨b', r⟩ := x; simp only [hn]; exact ih r (.up _ b) (.cons (h := .builder) b' st) s
  | start ok fail pn ih1 ih2 ih3 =>
    intro m b st s
    cases b with
    | up h b =>
      cases st with | cons bd st =>
      show UProg.run dbg sink (.start (lend k ok (.up _ b)) (fun e => lend k (fail e) b) (lend k pn b)) (.cons bd (lentState rest b st)) s = _
      unfold UProg.run
      cases hn : Unwind.start sink bd s with
      | error f => simp only [hn]; rfl
      | ok x =>
        obtain ⟨s', r⟩ := x
        cases r with
        | ok n => simp only [hn]; exact ih1 (.up _ b) (.cons (h := .writer true) n st) s'
        | err e => simp only [hn]; exact ih2 e b st s'
        | panic => simp only [hn]; exact ih3 b st s'
  | finish p ih =>
    intro m b st s
    cases b with
    | up h b => cases st with | cons n st => exact ih (s.write sink .stop none).2 b st (s.write sink .stop none).1
  | dropBuilder p ih =>
    intro m b st s
    cases b with
    | up h b => cases st with | cons n st => exact ih b st _
  | dropWriter p ih =>
    intro m b st s
    cases b with
    | up h b => cases st with | cons n st => exact ih b st _
  | forgetBuilder p ih =>
    intro m b st s
    cases b with
    | up h b => cases st with | cons n st => exact ih b st _
  | forgetWriter p ih =>
    intro m b st s
    cases b with
    | up h b => cases st with | cons n st => exact ih b st _

theorem run_namespace' (dbg : Bool) (sink : PSink) {hs : List Handle} (p u : String) (k : Ret Empty Unit → UProg (.builder :: hs)) (b : HState .builder)
    (rest : HStates hs) (s : UState) :
    UProg.run dbg sink (.namespace p u k) (.cons b rest) s =
      match namespace' dbg b p u with
      | .error f => .error f
      | .ok (b, r) => (k r).run dbg sink (.cons (h := .builder) b rest) s := by
  rw [UProg.run]
  cases h : namespace' dbg b p u with
  | error f => rfl
  | ok x => rfl

theorem run_namespace (dbg : Bool) (sink : PSink) {hs : List Handle} (p u : String) (k : Ret Empty Unit → UProg (.builder :: hs)) (b : Builder)
    (rest : HStates hs) (s : UState) :
    UProg.run dbg sink (.namespace p u k) (.cons (h := .builder) b rest) s =
      match namespace' dbg b p u with
      | .error f => .error f
      | .ok (b, r) => (k r).run dbg sink (.cons (h := .builder) b rest) s := run_namespace' dbg sink p u k b rest s

theorem run_attribute' (dbg : Bool) (sink : PSink) {hs : List Handle} (n : EName) (v : String) (k : Ret SErr Unit → UProg (.builder :: hs)) (b : HState .builder)
    (rest : HStates hs) (s : UState) :
    UProg.run dbg sink (.attribute n v k) (.cons b rest) s =
      match attribute' b n v with
      | .error f => .error f
      | .ok (b, r) => (k r).run dbg sink (.cons (h := .builder) b rest) s := by
  rw [UProg.run]
  cases h : attribute' b n v with
  | error f => rfl
  | ok x => rfl

theorem run_attribute (dbg : Bool) (sink : PSink) {hs : List Handle} (n : EName) (v : String) (k : Ret SErr Unit → UProg (.builder :: hs)) (b : Builder)
    (rest : HStates hs) (s : UState) :
    UProg.run dbg sink (.attribute n v k) (.cons (h := .builder) b rest) s =
      match attribute' b n v with
      | .error f => .error f
      | .ok (b, r) => (k r).run dbg sink (.cons (h := .builder) b rest) s := run_attribute' dbg sink n v k b rest s

theorem run_start' (dbg : Bool) (sink : PSink) {hs : List Handle} (ok : UProg (.writer true :: hs)) (fail : SErr → UProg hs) (pn : UProg hs) (b : HState .builder)
    (rest : HStates hs) (s : UState) :
    UProg.run dbg sink (.start ok fail pn) (.cons b rest) s =
      match Unwind.start sink b s with
      | .error f => .error f
      | .ok (s, .ok n) => ok.run dbg sink (.cons (h := .writer true) n rest) s
      | .ok (s, .err e) => (fail e).run dbg sink rest s
      | .ok (s, .panic) => pn.run dbg sink rest s := by
  rw [UProg.run]
  cases h : Unwind.start sink b s with
  | error f => rfl
  | ok x => obtain ⟨s', r⟩ := x; cases r <;> rfl

theorem run_start (dbg : Bool) (sink : PSink) {hs : List Handle} (ok : UProg (.writer true :: hs)) (fail : SErr → UProg hs) (pn : UProg hs) (b : Builder)
    (rest : HStates hs) (s : UState) :
    UProg.run dbg sink (.start ok fail pn) (.cons (h := .builder) b rest) s =
      match Unwind.start sink b s with
      | .error f => .error f
      | .ok (s, .ok n) => ok.run dbg sink (.cons (h := .writer true) n rest) s
      | .ok (s, .err e) => (fail e).run dbg sink rest s
      | .ok (s, .panic) => pn.run dbg sink rest s := run_start' dbg sink ok fail pn b rest s

theorem embed_run (dbg : Bool) (sink : PSink) {hs : List Handle} (a : UAttr) (k : Ret SErr Unit → UProg (.builder :: hs)) (b : Builder) (rest : HStates hs)
    (s : UState) :
    (a.embed k).run dbg sink (.cons (h := .builder) b rest) s =
      match a.run dbg b with
      | .error f => .error f
      | .ok (b', r) => (k r).run dbg sink (.cons (h := .builder) b' rest) s := by
  induction a generalizing b with
  | ret r => cases r <;> rfl
  | unwind => rfl
  | «namespace» p u a ih =>
    rw [UAttr.embed, UAttr.run, run_namespace]
    rcases namespace' dbg b p u with f | ⟨b', r⟩
    · rfl
    · exact ih r b'
  | «attribute» n v a ih =>
    rw [UAttr.embed, UAttr.run, run_attribute]
    rcases attribute' b n v with f | ⟨b', r⟩
    · rfl
    · exact ih r b'

/-- Writing a field of a type that implements `Serialize`, step by step. -/
theorem fieldOne_run (dbg : Bool) (sink : PSink) (v : USer) (name : EName) {o : Bool} {hs : List Handle} (k : Ret SErr Unit → UProg (.writer o :: hs))
    (n : Namespaces) (rest : HStates hs) (s : UState) :
    (fieldOne v name k).run dbg sink (.cons (h := .writer o) n rest) s =
      match v.attrs.run dbg (Builder.new name (n.child name.ns)) with
      | .error f => .error f
      | .ok (_, .err e) => (k (.err e)).run dbg sink (.cons (h := .writer o) n rest) (s.poisonWith .builderDropped)
      | .ok (_, .panic) => (k .panic).run dbg sink (.cons (h := .writer o) n rest) (s.poisonWith .builderDropped)
      | .ok (b, .ok ()) =>
        match Unwind.start sink b s with
        | .error f => .error f
        | .ok (s, .err e) => (k (.err e)).run dbg sink (.cons (h := .writer o) n rest) s
        | .ok (s, .panic) => (k .panic).run dbg sink (.cons (h := .writer o) n rest) s
        | .ok (s, .ok m) =>
          match v.children.run dbg sink (.cons (h := .writer false) m .nil) s with
          | .error f => .error f
          | .ok (s, .err e) => (k (.err e)).run dbg sink (.cons (h := .writer o) n rest) (s.poisonWith .writerDropped)
          | .ok (s, .panic) => (k .panic).run dbg sink (.cons (h := .writer o) n rest) (s.poisonWith .writerDropped)
          | .ok (s, .ok ()) => (k (s.write sink .stop none).2).run dbg sink (.cons (h := .writer o) n rest) (s.write sink .stop none).1 := by
  unfold fieldOne
  refine (embed_run dbg sink v.attrs _ (Builder.new name (n.child name.ns)) (.cons (h := .writer o) n rest) s).trans ?_
  cases ha : v.attrs.run dbg (Builder.new name (n.child name.ns)) with
  | error f => rfl
  | ok x =>
    obtain ⟨b, r⟩ := x
    cases r with
    | err e => rfl
    | panic => rfl
    | ok u =>
      simp only
      rw [run_start]
      cases hst : Unwind.start sink b s with
      | error f => rfl
      | ok y =>
        obtain ⟨s1, r1⟩ := y
        cases r1 with
        | err e => rfl
        | panic => rfl
        | ok m =>
          simp only
          have := lend_run dbg sink (o := true) (hs := .writer o :: hs) (fun r =>
            match r with
            | .err e => .dropWriter (k (.err e))
            | .panic => .dropWriter (k .panic)
            | .ok () => .finish k) (.cons (h := .writer o) n rest) v.children .base (.cons (h := .writer false) m .nil) s1
          refine this.trans ?_
          cases v.children.run dbg sink (.cons (h := .writer false) m .nil) s1 with
          | error f => rfl
          | ok z => obtain ⟨s2, r2⟩ := z; cases r2 <;> rfl

end SX.Unwind
