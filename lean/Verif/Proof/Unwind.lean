import Verif.Spec.Unwind
import Verif.Proof.OpenSer
import Verif.Proof.WriterTotal

/-
Runs with panics, as runs of programs without.
-/
namespace SX.Unwind
open SX.Open Spec.Unwind
open SX.Open (Ret)

/-- What is done, as a program to which nothing unexpected happens: what panicked is left out; handles that a panic destroyed are leaked. -/
def resolveAttr (dbg : Bool) : UAttr → Builder → AttrProg
  | .ret r, _ => .ret r
  | .unwind, _ => .ret (.error (.user "panic"))
  | .namespace p u k, b =>
    match namespace' dbg b p u with
    | .ok (b, .ok ()) => .namespace p u (resolveAttr dbg (k (.ok ())) b)
    | _ => resolveAttr dbg (k .panic) b
  | .attribute n v k, b =>
    match attribute' b n v with
    | .ok (b, .panic) => resolveAttr dbg (k .panic) b
    | .ok (b, r) => .attribute n v fun _ => resolveAttr dbg (k r) b
    | .error _ => resolveAttr dbg (k .panic) b

def resolve (dbg : Bool) (sink : PSink) : {hs : List Handle} → UProg hs → HStates hs → UState → Prog hs
  | _, .ret r, _, _ => .ret r
  | _, .unwind, _, _ => .ret (.error (.user "panic"))
  | _, .element (o := o) name k, .cons n rest, s =>
    .element name (resolve dbg sink k (.cons (h := .builder) (Builder.new name (Namespaces.child n name.ns)) (.cons (h := .writer o) n rest)) s)
  | _, .text t k, hs, s =>
    match s.write sink (.chars t) none with
    | (s, .panic) => resolve dbg sink (k .panic) hs s
    | (s, r) => .text t fun _ => resolve dbg sink (k r) hs s
  | _, .namespace p u k, .cons b rest, s =>
    match namespace' dbg b p u with
    | .ok (b, .ok ()) => .namespace p u (resolve dbg sink (k (.ok ())) (.cons (h := .builder) b rest) s)
    | _ => resolve dbg sink (k .panic) (.cons (h := .builder) b rest) s
  | _, .attribute n v k, .cons b rest, s =>
    match attribute' b n v with
    | .ok (b, .panic) => resolve dbg sink (k .panic) (.cons (h := .builder) b rest) s
    | .ok (b, r) => .attribute n v fun _ => resolve dbg sink (k r) (.cons (h := .builder) b rest) s
    | .error _ => resolve dbg sink (k .panic) (.cons (h := .builder) b rest) s
  | _, .start ok fail panicked, .cons b rest, s =>
    match Unwind.start sink b s with
    | .ok (s', .ok n) => .start (resolve dbg sink ok (.cons (h := .writer true) n rest) s') fun e => resolve dbg sink (fail e) rest s
    | .ok (s, .err e) => .start (.dropWriter (resolve dbg sink (fail e) rest s)) fun _ => resolve dbg sink (fail e) rest s
    | .ok (s, .panic) => .forgetBuilder (resolve dbg sink panicked rest s)
    | .error _ => .forgetBuilder (resolve dbg sink panicked rest s)
  | _, .finish k, .cons _ rest, s =>
    match s.write sink .stop none with
    | (s, .panic) => .forgetWriter (resolve dbg sink (k .panic) rest s)
    | (s, r) => .finish fun _ => resolve dbg sink (k r) rest s
  | _, .dropBuilder k, .cons _ rest, s => .dropBuilder (resolve dbg sink k rest (s.poisonWith .builderDropped))
  | _, .dropWriter k, .cons _ rest, s => .dropWriter (resolve dbg sink k rest (s.poisonWith .writerDropped))
  | _, .forgetBuilder k, .cons _ rest, s => .forgetBuilder (resolve dbg sink k rest s)
  | _, .forgetWriter k, .cons _ rest, s => .forgetWriter (resolve dbg sink k rest s)

/-- A sink that gives the answers, one for each event. -/
def replay (answers : List (Option String)) : Sink := fun out _ => (answers[out.length]?).join

/-- As long as nothing failed, there is an answer for each event written. -/
def Counted (s : UState) : Prop := s.w.poison = none → s.answers.length = s.w.out.length

theorem write_counted {sink : PSink} {s : UState} (h : Counted s) (e : WEvent) (a) : Counted (s.write sink e a).1 := by
  unfold UState.write
  cases hp : s.w.poison with
  | some p => intro h'; simp [hp] at h'
  | none =>
    have := h hp
    cases hs : sink s.tried e with
    | panics => simp only [hs]; intro _; exact this
    | fails m => simp only [hs]; intro h'; simp at h'
    | done => simp only [hs]; intro _; simp [this]

theorem write_answers (sink : PSink) (s : UState) (e : WEvent) (a) : s.answers <+: (s.write sink e a).1.answers := by
  unfold UState.write
  cases hp : s.w.poison with
  | some p => exact List.prefix_refl _
  | none =>
    cases hs : sink s.tried e with
    | panics => exact List.prefix_refl _
    | fails m => exact List.prefix_append _ _
    | done => exact List.prefix_append _ _

theorem prefix_get {l a : List (Option String)} {x : Option String} (h : (l ++ [x]) <+: a) : a[l.length]? = some x := by
  obtain ⟨t, rfl⟩ := h
  simp

/-- A write that does not panic is one of the sink that replays the answers. -/
theorem write_replay {sink : PSink} {s s' : UState} (hc : Counted s) {e : WEvent} {a} {r : Ret SErr Unit} (h : s.write sink e a = (s', r))
    {answers : List (Option String)} (ha : s'.answers <+: answers) :
    match r with
    | .panic => s'.w = s.w ∧ s'.answers = s.answers
    | .ok () => s.w.write (replay answers) e a = (s'.w, .ok ())
    | .err x => s.w.write (replay answers) e a = (s'.w, .error x) := by
  unfold UState.write at h
  unfold WState.write
  cases hp : s.w.poison with
  | some p =>
    simp only [hp, Prod.mk.injEq] at h
    obtain ⟨rfl, rfl⟩ := h
    rfl
  | none =>
    have hl := hc hp
    cases hs : sink s.tried e with
    | panics =>
      simp only [hp, hs, Prod.mk.injEq] at h
      obtain ⟨rfl, rfl⟩ := h
      exact ⟨rfl, rfl⟩
    | fails m =>
      simp only [hp, hs, Prod.mk.injEq] at h
      obtain ⟨rfl, rfl⟩ := h
      have := prefix_get ha
      simp only [replay, ← hl, this, Option.join]
      rfl
    | done =>
      simp only [hp, hs, Prod.mk.injEq] at h
      obtain ⟨rfl, rfl⟩ := h
      have := prefix_get ha
      simp only [replay, ← hl, this, Option.join]
      rfl

theorem start_write {sink : PSink} {b : Builder} {s s' : UState} {r : Ret SErr Namespaces} (h : Unwind.start sink b s = .ok (s', r)) :
    (r = .panic ∧ s' = s) ∨
    ∃ n q attrs r', b.ns.finalize = .ok n ∧ n.resolveElement b.name = .ok q ∧ SX.resolveAttrs n b.attrs = .ok attrs ∧
      s.write sink (.start q attrs n.byPrefix) (some (b.name, b.attrs)) = (s', r') ∧
      ((r' = .ok () ∧ r = .ok n) ∨ (∃ e, r' = .err e ∧ r = .err e) ∨ (r' = .panic ∧ r = .panic)) := by
  unfold Unwind.start at h
  cases hf : b.ns.finalize with
  | error f => cases f <;> simp [hf] at h; exact .inl ⟨h.2.symm, h.1.symm⟩
  | ok n =>
    cases hq : n.resolveElement b.name with
    | error f => cases f <;> simp [hf, hq] at h; exact .inl ⟨h.2.symm, h.1.symm⟩
    | ok q =>
      cases ha : SX.resolveAttrs n b.attrs with
      | error f => cases f <;> simp [hf, hq, ha] at h; exact .inl ⟨h.2.symm, h.1.symm⟩
      | ok attrs =>
        simp only [hf, hq, ha] at h
        refine .inr ⟨n, q, attrs, ?_⟩
        rcases hw : s.write sink (.start q attrs n.byPrefix) (some (b.name, b.attrs)) with ⟨s1, r'⟩
        rw [hw] at h
        cases r' with
        | ok u => simp only [Except.ok.injEq, Prod.mk.injEq] at h; obtain ⟨rfl, rfl⟩ := h; exact ⟨_, rfl, hq, ha, rfl, .inl ⟨rfl, rfl⟩⟩
        | err e => simp only [Except.ok.injEq, Prod.mk.injEq] at h; obtain ⟨rfl, rfl⟩ := h; exact ⟨_, rfl, hq, ha, rfl, .inr (.inl ⟨e, rfl, rfl⟩)⟩
        | panic => simp only [Except.ok.injEq, Prod.mk.injEq] at h; obtain ⟨rfl, rfl⟩ := h; exact ⟨_, rfl, hq, ha, rfl, .inr (.inr ⟨rfl, rfl⟩)⟩

theorem start_counted {sink : PSink} {b : Builder} {s s' : UState} {r : Ret SErr Namespaces} (h : Unwind.start sink b s = .ok (s', r))
    (hc : Counted s) : Counted s' ∧ s.answers <+: s'.answers := by
  rcases start_write h with ⟨-, rfl⟩ | ⟨n, q, attrs, r', -, -, -, hw, -⟩
  · exact ⟨hc, List.prefix_refl _⟩
  · have h1 := write_counted (sink := sink) hc (.start q attrs n.byPrefix) (some (b.name, b.attrs))
    have h2 := write_answers sink s (.start q attrs n.byPrefix) (some (b.name, b.attrs))
    rw [hw] at h1 h2
    exact ⟨h1, h2⟩

theorem start_replay {sink : PSink} {b : Builder} {s s' : UState} {r : Ret SErr Namespaces} (h : Unwind.start sink b s = .ok (s', r))
    (hc : Counted s) {answers : List (Option String)} (ha : s'.answers <+: answers) :
    match r with
    | .panic => s'.w = s.w ∧ s'.answers = s.answers
    | .ok n => Builder.start (replay answers) b s.w = .ok (s'.w, .ok n)
    | .err x => Builder.start (replay answers) b s.w = .ok (s'.w, .error x) := by
  rcases start_write h with ⟨rfl, rfl⟩ | ⟨n, q, attrs, r', h1, h2, h3, h4, h5⟩
  · exact ⟨rfl, rfl⟩
  · have := write_replay hc h4 ha
    rcases h5 with ⟨rfl, rfl⟩ | ⟨e, rfl, rfl⟩ | ⟨rfl, rfl⟩
    · simp only at this
      simp only [Builder.start, h1, h2, h3, this]
    · simp only at this
      simp only [Builder.start, h1, h2, h3, this]
    · exact this

theorem poisonWith_counted {s : UState} (e : SErr) : Counted (s.poisonWith e) := by
  intro h
  simp [UState.poisonWith, WState.poisonWith] at h

theorem run_answers (dbg : Bool) (sink : PSink) {hs : List Handle} (p : UProg hs) (st : HStates hs) (s s' : UState) (r : Ret SErr Unit)
    (h : p.run dbg sink st s = .ok (s', r)) (hc : Counted s) : Counted s' ∧ s.answers <+: s'.answers := by
  have trans : ∀ {s1 : UState}, s.answers <+: s1.answers → (Counted s' ∧ s1.answers <+: s'.answers) → Counted s' ∧ s.answers <+: s'.answers :=
    fun h1 h2 => ⟨h2.1, h1.trans h2.2⟩
  induction p generalizing s with
  | ret r =>
    cases r <;> simp only [UProg.run, Except.ok.injEq, Prod.mk.injEq] at h <;> (obtain ⟨rfl, rfl⟩ := h; exact ⟨hc, List.prefix_refl _⟩)
  | unwind => simp only [UProg.run, Except.ok.injEq, Prod.mk.injEq] at h; obtain ⟨rfl, rfl⟩ := h; exact ⟨hc, List.prefix_refl _⟩
  | element name k ih => cases st with | cons n rest => exact ih _ _ h hc trans
  | text t k ih =>
    simp only [UProg.run] at h
    exact trans (write_answers ..) (ih _ _ _ h (write_counted (sink := sink) hc _ _) (fun h1 h2 => ⟨h2.1, h1.trans h2.2⟩))
  | «namespace» p u k ih =>
    cases st with | cons b rest =>
    simp only [UProg.run] at h
    split at h
    · simp at h
    · exact ih _ _ _ h hc trans
  | «attribute» n v k ih =>
    cases st with | cons b rest =>
    simp only [UProg.run] at h
    split at h
    · simp at h
    · exact ih _ _ _ h hc trans
  | start ok fail pn ih1 ih2 ih3 =>
    cases st with | cons b rest =>
    simp only [UProg.run] at h
    split at h
    · simp at h
    · rename_i hs; obtain ⟨h1, h2⟩ := start_counted hs hc
      exact trans h2 (ih1 _ _ h h1 (fun h1 h2 => ⟨h2.1, h1.trans h2.2⟩))
    · rename_i hs; obtain ⟨h1, h2⟩ := start_counted hs hc
      exact trans h2 (ih2 _ _ _ h h1 (fun h1 h2 => ⟨h2.1, h1.trans h2.2⟩))
    · rename_i hs; obtain ⟨h1, h2⟩ := start_counted hs hc
      exact trans h2 (ih3 _ _ h h1 (fun h1 h2 => ⟨h2.1, h1.trans h2.2⟩))
  | finish k ih =>
    cases st with | cons b rest =>
    simp only [UProg.run] at h
    exact trans (write_answers ..) (ih _ _ _ h (write_counted (sink := sink) hc _ _) (fun h1 h2 => ⟨h2.1, h1.trans h2.2⟩))
  | dropBuilder k ih =>
    cases st with | cons b rest =>
    simp only [UProg.run] at h
    exact trans (s1 := s.poisonWith .builderDropped) (List.prefix_refl _) (ih _ _ h (poisonWith_counted _) (fun h1 h2 => ⟨h2.1, h1.trans h2.2⟩))
  | dropWriter k ih =>
    cases st with | cons b rest =>
    simp only [UProg.run] at h
    exact trans (s1 := s.poisonWith .writerDropped) (List.prefix_refl _) (ih _ _ h (poisonWith_counted _) (fun h1 h2 => ⟨h2.1, h1.trans h2.2⟩))
  | forgetBuilder k ih => cases st with | cons b rest => exact ih _ _ h hc trans
  | forgetWriter k ih => cases st with | cons b rest => exact ih _ _ h hc trans

/-- The result of the program without panics. -/
def flat : Ret SErr Unit → Except SErr Unit
  | .ok () => .ok ()
  | .err e => .error e
  | .panic => .error (.user "panic")

theorem namespace'_cases {dbg : Bool} {b b' : Builder} {p u : String} {r} (h : namespace' dbg b p u = .ok (b', r)) :
    (r = .ok () ∧ b.namespace dbg p u = .ok b') ∨ (r = .panic ∧ b' = b) := by
  unfold namespace' at h
  split at h
  · rename_i hb; simp only [Except.ok.injEq, Prod.mk.injEq] at h; obtain ⟨rfl, rfl⟩ := h; exact .inl ⟨rfl, hb⟩
  · simp only [Except.ok.injEq, Prod.mk.injEq] at h; exact .inr ⟨h.2.symm, h.1.symm⟩
  · exact nomatch h

theorem attribute'_cases {b b' : Builder} {n : EName} {v : String} {r} (h : attribute' b n v = .ok (b', r)) :
    (r ≠ .panic ∧ b.attribute n v = .ok (b', flat r)) ∨ (r = .panic ∧ b' = b) := by
  unfold attribute' at h
  split at h
  · rename_i hb; simp only [Except.ok.injEq, Prod.mk.injEq] at h; obtain ⟨rfl, rfl⟩ := h; exact .inl ⟨nofun, hb⟩
  · rename_i hb; simp only [Except.ok.injEq, Prod.mk.injEq] at h; obtain ⟨rfl, rfl⟩ := h; exact .inl ⟨nofun, hb⟩
  · simp only [Except.ok.injEq, Prod.mk.injEq] at h; exact .inr ⟨h.2.symm, h.1.symm⟩
  · exact nomatch h

theorem resolveAttr_run (dbg : Bool) (p : UAttr) (b b' : Builder) (r : Ret SErr Unit) (h : p.run dbg b = .ok (b', r)) :
    (resolveAttr dbg p b).run dbg b = .ok (b', flat r) := by
  induction p generalizing b with
  | ret r => cases r <;> (simp only [UAttr.run, Except.ok.injEq, Prod.mk.injEq] at h; obtain ⟨rfl, rfl⟩ := h; rfl)
  | unwind => simp only [UAttr.run, Except.ok.injEq, Prod.mk.injEq] at h; obtain ⟨rfl, rfl⟩ := h; rfl
  | «namespace» p u k ih =>
    simp only [UAttr.run] at h
    cases hn : namespace' dbg b p u with
    | error f => simp [hn] at h
    | ok x =>
      obtain ⟨b1, r1⟩ := x
      simp only [hn] at h
      rcases namespace'_cases hn with ⟨rfl, h1⟩ | ⟨rfl, rfl⟩
      · simp only [resolveAttr, hn, AttrProg.run, h1]
        exact ih _ _ h
      · simp only [resolveAttr, hn]
        exact ih _ _ h
  | «attribute» n v k ih =>
    simp only [UAttr.run] at h
    cases hn : attribute' b n v with
    | error f => simp [hn] at h
    | ok x =>
      obtain ⟨b1, r1⟩ := x
      simp only [hn] at h
      rcases attribute'_cases hn with ⟨h0, h1⟩ | ⟨rfl, rfl⟩
      · cases r1 with
        | panic => exact absurd rfl h0
        | ok x => simp only [resolveAttr, hn, AttrProg.run, h1]; exact ih _ _ h
        | err x => simp only [resolveAttr, hn, AttrProg.run, h1]; exact ih _ _ h
      · simp only [resolveAttr, hn]
        exact ih _ _ h

theorem resolve_run (dbg : Bool) (sink : PSink) (answers : List (Option String)) {hs : List Handle} (p : UProg hs) (st : HStates hs)
    (s s' : UState) (r : Ret SErr Unit) (h : p.run dbg sink st s = .ok (s', r)) (hc : Counted s) (ha : s'.answers <+: answers) :
    (resolve dbg sink p st s).run dbg (replay answers) st s.w = .ok (s'.w, flat r) := by
  induction p generalizing s with
  | ret r => cases r <;> (simp only [UProg.run, Except.ok.injEq, Prod.mk.injEq] at h; obtain ⟨rfl, rfl⟩ := h; rfl)
  | unwind => simp only [UProg.run, Except.ok.injEq, Prod.mk.injEq] at h; obtain ⟨rfl, rfl⟩ := h; rfl
  | element name k ih => cases st with | cons n rest => exact ih _ _ h hc
  | text t k ih =>
    simp only [UProg.run] at h
    rcases hw : s.write sink (.chars t) none with ⟨s1, r1⟩
    rw [hw] at h
    have hc1 : Counted s1 := by have := write_counted (sink := sink) hc (.chars t) none; rw [hw] at this; exact this
    have h2 := write_replay hc hw ((run_answers _ _ _ _ _ _ _ h hc1).2.trans ha)
    have h3 := ih _ _ _ h hc1
    cases r1 with
    | panic => simp only at h2; simp only [resolve, hw]; rw [← h2.1]; exact h3
    | ok u => simp only at h2; simp only [resolve, hw, Prog.run, h2]; exact h3
    | err e => simp only at h2; simp only [resolve, hw, Prog.run, h2]; exact h3
  | «namespace» p u k ih =>
    cases st with | cons b rest =>
    simp only [UProg.run] at h
    cases hn : namespace' dbg b p u with
    | error f => simp [hn] at h
    | ok x =>
      obtain ⟨b1, r1⟩ := x
      rw [hn] at h
      have h3 := ih _ _ _ h hc
      rcases namespace'_cases hn with ⟨rfl, h1⟩ | ⟨rfl, hb⟩
      · simp only [resolve, hn, Prog.run, h1]
        exact h3
      · rw [hb] at h3 hn
        simp only [resolve, hn]
        exact h3
  | «attribute» n v k ih =>
    cases st with | cons b rest =>
    simp only [UProg.run] at h
    cases hn : attribute' b n v with
    | error f => simp [hn] at h
    | ok x =>
      obtain ⟨b1, r1⟩ := x
      rw [hn] at h
      have h3 := ih _ _ _ h hc
      rcases attribute'_cases hn with ⟨h0, h1⟩ | ⟨rfl, hb⟩
      · cases r1 with
        | panic => exact absurd rfl h0
        | ok x => simp only [resolve, hn, Prog.run, h1]; exact h3
        | err x => simp only [resolve, hn, Prog.run, h1]; exact h3
      · rw [hb] at h3 hn
        simp only [resolve, hn]
        exact h3
  | start ok fail pn ih1 ih2 ih3 =>
    cases st with | cons b rest =>
    simp only [UProg.run] at h
    cases hs : Unwind.start sink b s with
    | error f => simp [hs] at h
    | ok x =>
      obtain ⟨s1, r1⟩ := x
      obtain ⟨hc1, -⟩ := start_counted hs hc
      cases r1 with
      | ok n =>
        simp only [hs] at h
        have h2 := start_replay hs hc ((run_answers _ _ _ _ _ _ _ h hc1).2.trans ha)
        simp only at h2
        simp only [resolve, hs, Prog.run, h2]
        exact ih1 _ _ h hc1
      | err e =>
        simp only [hs] at h
        have h2 := start_replay hs hc ((run_answers _ _ _ _ _ _ _ h hc1).2.trans ha)
        simp only at h2
        simp only [resolve, hs, Prog.run, h2]
        exact ih2 _ _ _ h hc1
      | panic =>
        simp only [hs] at h
        have h2 := start_replay hs hc ((run_answers _ _ _ _ _ _ _ h hc1).2.trans ha)
        simp only at h2
        simp only [resolve, hs, Prog.run]
        rw [← h2.1]
        exact ih3 _ _ h hc1
  | finish k ih =>
    cases st with | cons n rest =>
    simp only [UProg.run] at h
    rcases hw : s.write sink .stop none with ⟨s1, r1⟩
    rw [hw] at h
    have hc1 : Counted s1 := by have := write_counted (sink := sink) hc .stop none; rw [hw] at this; exact this
    have h2 := write_replay hc hw ((run_answers _ _ _ _ _ _ _ h hc1).2.trans ha)
    have h3 := ih _ _ _ h hc1
    cases r1 with
    | panic => simp only at h2; simp only [resolve, hw, Prog.run]; rw [← h2.1]; exact h3
    | ok u => simp only at h2; simp only [resolve, hw, Prog.run, h2]; exact h3
    | err e => simp only at h2; simp only [resolve, hw, Prog.run, h2]; exact h3
  | dropBuilder k ih => cases st with | cons b rest => exact ih _ _ h (poisonWith_counted _)
  | dropWriter k ih => cases st with | cons b rest => exact ih _ _ h (poisonWith_counted _)
  | forgetBuilder k ih => cases st with | cons b rest => exact ih _ _ h hc
  | forgetWriter k ih => cases st with | cons b rest => exact ih _ _ h hc

theorem resolve_noForget (dbg : Bool) {sink : PSink} (hsink : EndsSafely sink) {hs : List Handle} (p : UProg hs) (hp : NoForget p) (st : HStates hs)
    (s : UState) : Spec.NoForget (resolve dbg sink p st s) := by
  induction p generalizing s with
  | ret r => exact trivial
  | unwind => exact trivial
  | element name k ih => cases st with | cons n rest => exact ih hp _ _
  | text t k ih =>
    simp only [resolve]
    split
    · exact ih _ (hp _) _ _
    · exact fun _ => ih _ (hp _) _ _
  | «namespace» p u k ih =>
    cases st with | cons b rest =>
    simp only [resolve]
    split
    · exact ih _ (hp _) _ _
    · exact ih _ (hp _) _ _
  | «attribute» n v k ih =>
    cases st with | cons b rest =>
    simp only [resolve]
    split
    · exact ih _ (hp _) _ _
    · exact fun _ => ih _ (hp _) _ _
    · exact ih _ (hp _) _ _
  | start ok fail pn ih1 ih2 ih3 =>
    cases st with | cons b rest =>
    obtain ⟨h1, h2, h3⟩ := hp
    simp only [resolve]
    split
    · exact ⟨ih1 h1 _ _, fun e => ih2 e (h2 e) _ _⟩
    · exact ⟨ih2 _ (h2 _) _ _, fun e => ih2 _ (h2 _) _ _⟩
    · exact ih3 h3 _ _
    · exact ih3 h3 _ _
  | finish k ih =>
    cases st with | cons b rest =>
    simp only [resolve]
    split
    · rename_i hw
      exfalso
      unfold UState.write at hw
      split at hw
      · simp at hw
      · split at hw
        · rename_i hx; exact hsink _ hx
        · simp at hw
        · simp at hw
    · exact fun _ => ih _ (hp _) _ _
  | dropBuilder k ih => cases st with | cons b rest => exact ih hp _ _
  | dropWriter k ih => cases st with | cons b rest => exact ih hp _ _
  | forgetBuilder k ih => cases st with | cons b rest => exact ih hp _ _
  | forgetWriter k ih => exact hp.elim

theorem resolveAttr_mappings (dbg : Bool) (M : String → String → Prop) (p : UAttr) (hp : AttrMappings M p) (b : Builder) :
    Spec.AttrProg.Mappings M (resolveAttr dbg p b) := by
  induction p generalizing b with
  | ret r => exact trivial
  | unwind => exact trivial
  | «namespace» p u k ih =>
    simp only [resolveAttr]
    split
    · exact ⟨hp.1, ih _ (hp.2 _) _⟩
    · exact ih _ (hp.2 _) _
  | «attribute» n v k ih =>
    simp only [resolveAttr]
    split
    · exact ih _ (hp _) _
    · exact fun _ => ih _ (hp _) _
    · exact ih _ (hp _) _

theorem resolve_mappings (dbg : Bool) (M : String → String → Prop) (sink : PSink) {hs : List Handle} (p : UProg hs) (hp : Mappings M p) (st : HStates hs)
    (s : UState) : Spec.Prog.Mappings M (resolve dbg sink p st s) := by
  induction p generalizing s with
  | ret r => exact trivial
  | unwind => exact trivial
  | element name k ih => cases st with | cons n rest => exact ih hp _ _
  | text t k ih =>
    simp only [resolve]
    split
    · exact ih _ (hp _) _ _
    · exact fun _ => ih _ (hp _) _ _
  | «namespace» p u k ih =>
    cases st with | cons b rest =>
    simp only [resolve]
    split
    · exact ⟨hp.1, ih _ (hp.2 _) _ _⟩
    · exact ih _ (hp.2 _) _ _
  | «attribute» n v k ih =>
    cases st with | cons b rest =>
    simp only [resolve]
    split
    · exact ih _ (hp _) _ _
    · exact fun _ => ih _ (hp _) _ _
    · exact ih _ (hp _) _ _
  | start ok fail pn ih1 ih2 ih3 =>
    cases st with | cons b rest =>
    obtain ⟨h1, h2, h3⟩ := hp
    simp only [resolve]
    split
    · exact ⟨ih1 h1 _ _, fun e => ih2 e (h2 e) _ _⟩
    · exact ⟨ih2 _ (h2 _) _ _, fun e => ih2 _ (h2 _) _ _⟩
    · exact ih3 h3 _ _
    · exact ih3 h3 _ _
  | finish k ih =>
    cases st with | cons b rest =>
    simp only [resolve]
    split
    · exact ih _ (hp _) _ _
    · exact fun _ => ih _ (hp _) _ _
  | dropBuilder k ih => cases st with | cons b rest => exact ih hp _ _
  | dropWriter k ih => cases st with | cons b rest => exact ih hp _ _
  | forgetBuilder k ih => cases st with | cons b rest => exact ih hp _ _
  | forgetWriter k ih => cases st with | cons b rest => exact ih hp _ _

theorem counted_init : Counted { w := { out := [], poison := none, steps := [] }, tried := [], answers := [] } := fun _ => rfl

/-- A serialization that does not end in a panic, as one without panics. -/
theorem serializeTo_resolve {dbg : Bool} {sink : PSink} {name : EName} {attrs : UAttr} {children : UProg [.writer false]} {s : UState}
    {r : Ret SErr Unit} (h : serializeTo dbg sink name attrs children = .ok (s, r)) (hr : r ≠ .panic) :
    ∃ (sink' : Sink) (attrs' : AttrProg) (children' : Prog [.writer false]), SX.serializeTo dbg sink' name attrs' children' = .ok (s.w, flat r) ∧
      (∀ M, AttrMappings M attrs → Spec.AttrProg.Mappings M attrs') ∧ (∀ M, Mappings M children → Spec.Prog.Mappings M children') ∧
      (EndsSafely sink → NoForget children → Spec.NoForget children') := by
  have hA := fun M hM => resolveAttr_mappings dbg M attrs hM (Builder.new name [])
  unfold serializeTo at h
  simp only at h
  cases ha : attrs.run dbg (Builder.new name []) with
  | error f => simp [ha] at h
  | ok x =>
    obtain ⟨b, r1⟩ := x
    have hb := resolveAttr_run dbg attrs _ _ _ ha
    cases r1 with
    | panic => simp only [ha, Except.ok.injEq, Prod.mk.injEq] at h; exact absurd h.2.symm hr
    | err e =>
      simp only [ha, Except.ok.injEq, Prod.mk.injEq] at h
      obtain ⟨rfl, rfl⟩ := h
      refine ⟨replay [], resolveAttr dbg attrs (Builder.new name []), .ret (.ok ()), ?_, hA, fun _ _ => trivial, fun _ _ => trivial⟩
      simp only [SX.serializeTo, hb, flat]
      rfl
    | ok u =>
      simp only [ha] at h
      cases hs : Unwind.start sink b { w := { out := [], poison := none, steps := [] }, tried := [], answers := [] } with
      | error f => simp [hs] at h
      | ok x =>
        obtain ⟨s1, r1⟩ := x
        obtain ⟨hc1, -⟩ := start_counted hs counted_init
        cases r1 with
        | panic => simp only [hs, Except.ok.injEq, Prod.mk.injEq] at h; exact absurd h.2.symm hr
        | err e =>
          simp only [hs, Except.ok.injEq, Prod.mk.injEq] at h
          obtain ⟨rfl, rfl⟩ := h
          refine ⟨replay s1.answers, resolveAttr dbg attrs (Builder.new name []), .ret (.ok ()), ?_, hA, fun _ _ => trivial, fun _ _ => trivial⟩
          have h2 := start_replay hs counted_init (List.prefix_refl _)
          simp only at h2
          simp only [SX.serializeTo, hb, flat, h2]
        | ok n =>
          simp only [hs] at h
          cases hk : children.run dbg sink (.cons (h := .writer false) n .nil) s1 with
          | error f => simp [hk] at h
          | ok y =>
            obtain ⟨s2, r2⟩ := y
            obtain ⟨hc2, hp2⟩ := run_answers _ _ _ _ _ _ _ hk hc1
            have hrest : ∀ (answers : List (Option String)), s2.answers <+: answers →
                Builder.start (replay answers) b { out := [], poison := none, steps := [] } = .ok (s1.w, .ok n) ∧
                (resolve dbg sink children (.cons (h := .writer false) n .nil) s1).run dbg (replay answers) (.cons (h := .writer false) n .nil) s1.w
                  = .ok (s2.w, flat r2) := by
              intro answers hp
              have h2 := start_replay hs counted_init (hp2.trans hp)
              simp only at h2
              exact ⟨h2, resolve_run dbg sink answers children _ _ _ _ hk hc1 hp⟩
            cases r2 with
            | panic => simp only [hk, Except.ok.injEq, Prod.mk.injEq] at h; exact absurd h.2.symm hr
            | err e =>
              simp only [hk, Except.ok.injEq, Prod.mk.injEq] at h
              obtain ⟨rfl, rfl⟩ := h
              obtain ⟨h3, h4⟩ := hrest s2.answers (List.prefix_refl _)
              refine ⟨replay s2.answers, resolveAttr dbg attrs (Builder.new name []), resolve dbg sink children (.cons (h := .writer false) n .nil) s1, ?_, hA,
                fun M hM => resolve_mappings dbg M sink children hM _ _, fun h1 h2 => resolve_noForget dbg h1 children h2 _ _⟩
              simp only [SX.serializeTo, hb, flat, h3, h4]
              rfl
            | ok u =>
              simp only [hk, Except.ok.injEq] at h
              have hp3 := write_answers sink s2 .stop none
              rw [h] at hp3
              obtain ⟨h3, h4⟩ := hrest s.answers hp3
              refine ⟨replay s.answers, resolveAttr dbg attrs (Builder.new name []), resolve dbg sink children (.cons (h := .writer false) n .nil) s1, ?_, hA,
                fun M hM => resolve_mappings dbg M sink children hM _ _, fun h1 h2 => resolve_noForget dbg h1 children h2 _ _⟩
              have h5 := write_replay hc2 h (List.prefix_refl _)
              cases r with
              | panic => exact absurd rfl hr
              | ok u => simp only at h5; simp only [SX.serializeTo, hb, flat, h3, h4, h5]
              | err e => simp only at h5; simp only [SX.serializeTo, hb, flat, h3, h4, h5]

end SX.Unwind
