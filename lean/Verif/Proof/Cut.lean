import Verif.Spec.Cut
import Verif.Proof.WriterDoc
import Verif.Proof.DeriveSerStops

/-
Runs of a program with a writer that fails, compared to the run with one that does not.
-/
namespace SX.Cut
open Spec

/-- `x`: the end of a run from `s0` with `sink`; `x'`: with a writer that never fails. -/
def Ends (sink : Sink) (s0 : WState) (x x' : WState × Except SErr Unit) : Prop :=
  ∃ es, x'.1.out = s0.out ++ es ∧ x.1.out = s0.out ++ (received sink s0.out es).1 ∧
    ((received sink s0.out es).2 = none → x = x') ∧ ∀ m, (received sink s0.out es).2 = some m → x.1.poison = some (.write m)

theorem run_out_poisoned {dbg : Bool} {sink : Sink} {hs : List Handle} {p : Prog hs} {st : HStates hs} {s : WState} {e : SErr}
    (hp : s.poison = some e) {x : WState × Except SErr Unit} (h : p.run dbg sink st s = .ok x) : x.1.out = s.out ∧ x.1.poison = some e :=
  Prog.run_inv dbg sink (fun t => t.out = s.out ∧ t.poison = some e)
    (fun t ev a hi => by
      unfold WState.write
      rw [hi.2]
      exact ⟨hi.1, rfl⟩)
    (fun t e' hi => ⟨hi.1, by simp [WState.poisonWith, hi.2]⟩) p st s x.1 x.2 h ⟨rfl, hp⟩

theorem run_out_grows {dbg : Bool} {sink : Sink} {hs : List Handle} {p : Prog hs} {st : HStates hs} {s : WState}
    {x : WState × Except SErr Unit} (h : p.run dbg sink st s = .ok x) : ∃ es, x.1.out = s.out ++ es :=
  Prog.run_inv dbg sink (fun t => ∃ es, t.out = s.out ++ es)
    (fun t ev a ⟨es, hi⟩ => by
      unfold WState.write
      split
      · exact ⟨es, hi⟩
      · split
        · exact ⟨es, hi⟩
        · exact ⟨es ++ [ev], by simp [hi]⟩)
    (fun t e' hi => hi) p st s x.1 x.2 h ⟨[], by simp⟩

theorem ends_same (sink : Sink) (s0 : WState) (x : WState × Except SErr Unit) (h : x.1.out = s0.out) : Ends sink s0 x x :=
  ⟨[], by simp [h], by simp [h, received], fun _ => rfl, by simp [received]⟩

/-- Either a write does the same for both, or it is the failure. -/
theorem write_cases (sink : Sink) (s : WState) (e : WEvent) (a : Option (EName × List (EName × String))) :
    (s.write sink e a = s.write neverFails e a ∧ ∀ x x', Ends sink (s.write neverFails e a).1 x x' → Ends sink s x x') ∨
    ∃ m, (s.write sink e a).2 = .error (.write m) ∧ (s.write sink e a).1.poison = some (.write m) ∧ (s.write sink e a).1.out = s.out ∧
      (s.write neverFails e a).1.out = s.out ++ [e] ∧ sink s.out e = some m := by
  unfold WState.write neverFails
  cases hp : s.poison with
  | some p => exact .inl ⟨rfl, fun x x' h => h⟩
  | none =>
    cases hs : sink s.out e with
    | some m => exact .inr ⟨m, rfl, rfl, rfl, rfl, rfl⟩
    | none =>
      refine .inl ⟨rfl, ?_⟩
      rintro x x' ⟨es, h1, h2, h3, h4⟩
      refine ⟨e :: es, by simp [h1], ?_⟩
      simp only at h2 h3 h4
      simp only [received, hs]
      exact ⟨by rw [h2]; simp, h3, h4⟩

theorem ends_failed {sink : Sink} {s : WState} {e : WEvent} {m : String} (hm : sink s.out e = some m) {x x' : WState × Except SErr Unit}
    (h1 : x.1.out = s.out ∧ x.1.poison = some (.write m)) (h2 : ∃ es, x'.1.out = s.out ++ [e] ++ es) : Ends sink s x x' := by
  obtain ⟨es, h2⟩ := h2
  refine ⟨e :: es, by rw [h2]; simp, ?_⟩
  simp only [received, hm]
  refine ⟨by simp [h1.1], by simp, ?_⟩
  rintro m' ⟨⟩
  exact h1.2

theorem start_write (b : Builder) : (∃ f, ∀ sink s, b.start sink s = .error f) ∨ ∃ n e a, ∀ sink s, b.start sink s =
    match s.write sink e a with
    | (s, .error e) => .ok (s, .error e)
    | (s, .ok ()) => .ok (s, .ok n) := by
  unfold Builder.start
  split
  · exact .inl ⟨_, fun _ _ => rfl⟩
  · split
    · exact .inl ⟨_, fun _ _ => rfl⟩
    · split
      · exact .inl ⟨_, fun _ _ => rfl⟩
      · exact .inr ⟨_, _, _, fun _ _ => rfl⟩

theorem run_ends (dbg : Bool) (sink : Sink) {hs : List Handle} (p : Prog hs) (st : HStates hs) (s : WState) (x x' : WState × Except SErr Unit)
    (h : p.run dbg sink st s = .ok x) (h' : p.run dbg neverFails st s = .ok x') : Ends sink s x x' := by
  induction p generalizing s with
  | ret r =>
    cases h
    cases h'
    exact ends_same sink s _ rfl
  | element name k ih => cases st with | cons n rest => exact ih _ s h h'
  | text t k ih =>
    have h : (k (s.write sink (.chars t) none).2).run dbg sink st (s.write sink (.chars t) none).1 = .ok x := h
    have h' : (k (s.write neverFails (.chars t) none).2).run dbg neverFails st (s.write neverFails (.chars t) none).1 = .ok x' := h'
    rcases write_cases sink s (.chars t) none with ⟨hw, hk⟩ | ⟨m, w1, w2, w3, w4, w5⟩
    · rw [hw] at h
      exact hk _ _ (ih _ st _ h h')
    · exact ends_failed w5 (by rw [← w3]; exact run_out_poisoned w2 h) (by rw [← w4]; exact run_out_grows h')
  | «namespace» p u k ih =>
    cases st with | cons b rest =>
    simp only [Prog.run] at h h'
    cases hb : Builder.namespace dbg b p u with
    | error f => rw [hb] at h; cases h
    | ok b' => rw [hb] at h h'; exact ih _ s h h'
  | «attribute» n v k ih =>
    cases st with | cons b rest =>
    simp only [Prog.run] at h h'
    cases hb : Builder.attribute b n v with
    | error f => rw [hb] at h; cases h
    | ok b' => rw [hb] at h h'; exact ih _ _ s h h'
  | start ok fail ih1 ih2 =>
    cases st with | cons b rest =>
    simp only [Prog.run] at h h'
    rcases start_write b with ⟨f, hf⟩ | ⟨n, e, a, hst⟩
    · rw [hf] at h; cases h
    · rw [hst] at h h'
      rcases write_cases sink s e a with ⟨hw, hk⟩ | ⟨m, w1, w2, w3, w4, w5⟩
      · rw [hw] at h
        apply hk
        cases hr : s.write neverFails e a with
        | mk s1 r =>
          rw [hr] at h h'
          cases r with
          | error err => exact ih2 _ _ _ h h'
          | ok u => exact ih1 _ _ h h'
      · refine ends_failed w5 ?_ ?_
        · rw [← w3]
          cases hr : s.write sink e a with
          | mk s1 r =>
            rw [hr] at h w1 w2
            simp only at w1
            subst w1
            exact run_out_poisoned w2 h
        · rw [← w4]
          cases hr : s.write neverFails e a with
          | mk s1 r =>
            rw [hr] at h'
            cases r with
            | error err => exact run_out_grows h'
            | ok u => exact run_out_grows h'
  | finish k ih =>
    cases st with | cons b rest =>
    have h : (k (s.write sink .stop none).2).run dbg sink rest (s.write sink .stop none).1 = .ok x := h
    have h' : (k (s.write neverFails .stop none).2).run dbg neverFails rest (s.write neverFails .stop none).1 = .ok x' := h'
    rcases write_cases sink s .stop none with ⟨hw, hk⟩ | ⟨m, w1, w2, w3, w4, w5⟩
    · rw [hw] at h
      exact hk _ _ (ih _ rest _ h h')
    · exact ends_failed w5 (by rw [← w3]; exact run_out_poisoned w2 h) (by rw [← w4]; exact run_out_grows h')
  | dropBuilder k ih => cases st with | cons b rest => exact ih _ (s.poisonWith .builderDropped) h h'
  | dropWriter k ih => cases st with | cons b rest => exact ih _ (s.poisonWith .writerDropped) h h'
  | forgetBuilder k ih => cases st with | cons b rest => exact ih _ s h h'
  | forgetWriter k ih => cases st with | cons b rest => exact ih _ s h h'

theorem received_append (sink : Sink) (b es es' : List WEvent) :
    ((received sink b es).2 = none → (received sink b es).1 = es ∧
      received sink b (es ++ es') = (es ++ (received sink (b ++ es) es').1, (received sink (b ++ es) es').2)) ∧
    ∀ m, (received sink b es).2 = some m → received sink b (es ++ es') = received sink b es := by
  induction es generalizing b with
  | nil => simp [received]
  | cons e es ih =>
    simp only [List.cons_append, received]
    cases hs : sink b e with
    | some m => simp
    | none =>
      obtain ⟨h1, h2⟩ := ih (b ++ [e])
      simp only
      refine ⟨?_, ?_⟩
      · intro h
        obtain ⟨h3, h4⟩ := h1 h
        rw [h4, h3]
        simp
      · intro m h
        rw [h2 m h]

theorem received_short (sink : Sink) (b es : List WEvent) {m : String} (h : (received sink b es).2 = some m) :
    (received sink b es).1.length < es.length := by
  induction es generalizing b with
  | nil => simp [received] at h
  | cons e es ih =>
    simp only [received] at h ⊢
    cases hs : sink b e with
    | some m' => simp
    | none =>
      simp only [hs] at h
      simp only [List.length_cons]
      have := ih _ h
      omega

/-- One after the other. -/
theorem ends_after {sink : Sink} {s : WState} {y y' x x' : WState × Except SErr Unit} (h : Ends sink s y y')
    (h1 : y = y' → Ends sink y'.1 x x') (h2 : ∀ m, y.1.poison = some (.write m) → x.1.out = y.1.out ∧ x.1.poison = some (.write m))
    (h3 : ∃ es, x'.1.out = y'.1.out ++ es) : Ends sink s x x' := by
  obtain ⟨es, k1, k2, k3, k4⟩ := h
  cases hr : (received sink s.out es).2 with
  | none =>
    obtain ⟨es', j1, j2, j3, j4⟩ := h1 (k3 hr)
    obtain ⟨i1, i2⟩ := (received_append sink s.out es es').1 hr
    refine ⟨es ++ es', by rw [j1, k1]; simp, ?_⟩
    rw [i2]
    rw [k1] at j2 j3 j4
    exact ⟨by rw [j2]; simp, j3, j4⟩
  | some m =>
    obtain ⟨l1, l2⟩ := h2 m (k4 m hr)
    obtain ⟨es', h3⟩ := h3
    refine ⟨es ++ es', by rw [h3, k1]; simp, ?_⟩
    rw [(received_append sink s.out es es').2 m hr, hr]
    refine ⟨by rw [l1, k2], by simp, ?_⟩
    rintro m' ⟨⟩
    exact l2

/-- After `write_children` (`ser/mod.rs:713-716`). -/
def close (sink : Sink) : WState × Except SErr Unit → WState × Except SErr Unit
  | (s, .error e) => (s.poisonWith .writerDropped, .error e)
  | (s, .ok ()) => s.write sink .stop none

theorem close_poisoned (sink : Sink) (y : WState × Except SErr Unit) {e : SErr} (h : y.1.poison = some e) :
    (close sink y).1.out = y.1.out ∧ (close sink y).1.poison = some e ∧ (y.2 = .error e → (close sink y).2 = .error e) ∧ (close sink y).2 ≠ .ok () := by
  obtain ⟨s, r⟩ := y
  cases r with
  | error e' =>
    simp only at h
    exact ⟨rfl, by simp [close, WState.poisonWith, h], fun h => h, by simp [close]⟩
  | ok u =>
    simp only at h
    simp only [close, WState.write]
    rw [h]
    exact ⟨rfl, rfl, fun _ => rfl, by simp⟩

theorem close_grows (sink : Sink) (y : WState × Except SErr Unit) : ∃ es, (close sink y).1.out = y.1.out ++ es := by
  obtain ⟨s, r⟩ := y
  cases r with
  | error e' => exact ⟨[], by simp [close, WState.poisonWith]⟩
  | ok u =>
    simp only [close, WState.write]
    split
    · exact ⟨[], by simp⟩
    · split
      · exact ⟨[], by simp⟩
      · exact ⟨_, rfl⟩

theorem close_ends (sink : Sink) (y : WState × Except SErr Unit) : Ends sink y.1 (close sink y) (close neverFails y) := by
  obtain ⟨s, r⟩ := y
  cases r with
  | error e => exact ends_same sink s _ rfl
  | ok u =>
    rcases write_cases sink s .stop none with ⟨hw, hk⟩ | ⟨m, w1, w2, w3, w4, w5⟩
    · simp only [close, hw]
      exact hk _ _ (ends_same sink _ _ rfl)
    · exact ends_failed w5 ⟨w3, w2⟩ ⟨[], by simpa [close] using w4⟩

/-- A serialization, from the start tag on. -/
theorem serializeTo_eq (dbg : Bool) (name : EName) (attrs : AttrProg) (children : Prog [.writer false]) :
    (∃ f, ∀ sink, serializeTo dbg sink name attrs children = .error f) ∨
    (∃ e, ∀ sink, serializeTo dbg sink name attrs children =
      .ok (({ out := [], poison := none, steps := [] } : WState).poisonWith .builderDropped, .error e)) ∨
    ∃ n e a, ∀ sink, serializeTo dbg sink name attrs children =
      match ({ out := [], poison := none, steps := [] } : WState).write sink e a with
      | (s, .error e) => .ok (s, .error e)
      | (s, .ok ()) =>
        match children.run dbg sink (.cons (h := .writer false) n .nil) s with
        | .error f => .error f
        | .ok y => .ok (close sink y) := by
  unfold serializeTo
  simp only
  cases ha : attrs.run dbg (Builder.new name []) with
  | error f => exact .inl ⟨f, fun _ => rfl⟩
  | ok br =>
    obtain ⟨b, r⟩ := br
    cases r with
    | error e => exact .inr (.inl ⟨e, fun _ => rfl⟩)
    | ok u =>
      rcases start_write b with ⟨f, hf⟩ | ⟨n, e, a, hst⟩
      · exact .inl ⟨f, fun sink => by simp only [hf]⟩
      · refine .inr (.inr ⟨n, e, a, fun sink => ?_⟩)
        simp only [hst]
        cases hw : ({ out := [], poison := none, steps := [] } : WState).write sink e a with
        | mk s r =>
          cases r with
          | error e => rfl
          | ok u =>
            simp only
            cases hr : children.run dbg sink (.cons (h := .writer false) n .nil) s with
            | error f => rfl
            | ok y =>
              obtain ⟨s2, r⟩ := y
              cases r with
              | error e => rfl
              | ok u => rfl

theorem serializeTo_ends (dbg : Bool) (sink : Sink) (name : EName) (attrs : AttrProg) (children : Prog [.writer false])
    (x x' : WState × Except SErr Unit) (h : serializeTo dbg sink name attrs children = .ok x)
    (h' : serializeTo dbg neverFails name attrs children = .ok x') :
    Ends sink { out := [], poison := none, steps := [] } x x' ∧ ∀ e, x.1.poison = some e → x.2 ≠ .ok () := by
  rcases serializeTo_eq dbg name attrs children with ⟨f, hf⟩ | ⟨e, he⟩ | ⟨n, e, a, heq⟩
  · rw [hf] at h; cases h
  · rw [he] at h h'
    cases h
    cases h'
    exact ⟨ends_same sink _ _ rfl, fun e _ => by simp⟩
  · rw [heq] at h h'
    rcases write_cases sink { out := [], poison := none, steps := [] } e a with ⟨hw, hk⟩ | ⟨m, w1, w2, w3, w4, w5⟩
    · rw [hw] at h
      cases hr : ({ out := [], poison := none, steps := [] } : WState).write neverFails e a with
      | mk s r =>
        rw [hr] at h h' hk
        cases r with
        | error err =>
          cases h
          cases h'
          exact ⟨hk _ _ (ends_same sink _ _ rfl), fun e _ => by simp⟩
        | ok u =>
          simp only at h h'
          cases hc : children.run dbg sink (.cons (h := .writer false) n .nil) s with
          | error f => rw [hc] at h; cases h
          | ok y =>
            cases hc' : children.run dbg neverFails (.cons (h := .writer false) n .nil) s with
            | error f => rw [hc'] at h'; cases h'
            | ok y' =>
              rw [hc] at h
              rw [hc'] at h'
              cases h
              cases h'
              refine ⟨hk _ _ (ends_after (run_ends dbg sink children _ s y y' hc hc') ?_ ?_ (close_grows _ _)), ?_⟩
              · rintro rfl
                exact close_ends sink y
              · intro m hm
                exact ⟨(close_poisoned sink y hm).1, (close_poisoned sink y hm).2.1⟩
              · intro e he
                obtain ⟨s2, r⟩ := y
                cases r with
                | error e' => simp [close]
                | ok u =>
                  simp only [close] at he ⊢
                  intro hok
                  have := write_ok hok
                  rw [this] at he
                  cases he
    · have hx : x.1 = (({ out := [], poison := none, steps := [] } : WState).write sink e a).1 ∧ x.2 = .error (.write m) := by
        cases hr : ({ out := [], poison := none, steps := [] } : WState).write sink e a with
        | mk s r =>
          rw [hr] at h w1
          simp only at w1
          subst w1
          cases h
          exact ⟨rfl, rfl⟩
      refine ⟨ends_failed w5 (by rw [hx.1]; exact ⟨w3, w2⟩) ?_, fun e _ => by rw [hx.2]; simp⟩
      rw [← w4]
      cases hr : ({ out := [], poison := none, steps := [] } : WState).write neverFails e a with
      | mk s r =>
        rw [hr] at h'
        cases r with
        | error err => cases h'; exact ⟨[], by simp⟩
        | ok u =>
          simp only at h'
          cases hc' : children.run dbg neverFails (.cons (h := .writer false) n .nil) s with
          | error f => rw [hc'] at h'; cases h'
          | ok y' =>
            rw [hc'] at h'
            cases h'
            obtain ⟨es, h1⟩ := run_out_grows hc'
            obtain ⟨es', h2⟩ := close_grows neverFails y'
            exact ⟨es ++ es', by rw [h2, h1]; simp⟩

/-! ### Derived implementations -/

theorem gives_same (dbg : Bool) (sink sink' : Sink) (e : SErr) {hs : List Handle} (p : Prog hs) (h : p.Gives e) (st : HStates hs) (s : WState) :
    p.run dbg sink st s = p.run dbg sink' st s := by
  induction p generalizing s with
  | ret r => rfl
  | dropBuilder k ih => cases st with | cons b rest => exact ih h rest _
  | dropWriter k ih => cases st with | cons b rest => exact ih h rest _
  | _ => exact h.elim

/-- A run with `sink` ends as the one that does not fail, or with the failure. -/
def EndsOr (dbg : Bool) (sink : Sink) {hs : List Handle} (p : Prog hs) (st : HStates hs) (s : WState) (x' : WState × Except SErr Unit) : Prop :=
  ∃ x, p.run dbg sink st s = .ok x ∧ (x = x' ∨ ∃ m, x.1.poison = some (.write m) ∧ x.2 = .error (.write m))

theorem gives_fails (dbg : Bool) (sink : Sink) {hs : List Handle} (p : Prog hs) {m : String} (h : p.Gives (.write m)) (st : HStates hs) (s : WState)
    (hp : s.poison = some (.write m)) (x' : WState × Except SErr Unit) : EndsOr dbg sink p st s x' := by
  obtain ⟨s', post, h1, -⟩ := gives_run dbg sink _ p h st s
  exact ⟨_, h1, .inr ⟨m, (run_out_poisoned hp h1).2, rfl⟩⟩

theorem strict_ends (dbg : Bool) (sink : Sink) {hs : List Handle} (p : Prog hs) (hp : p.Strict) (st : HStates hs) (s : WState)
    (x' : WState × Except SErr Unit) (h : p.run dbg neverFails st s = .ok x') : EndsOr dbg sink p st s x' := by
  induction p generalizing s with
  | ret r => exact ⟨x', h, .inl rfl⟩
  | element name k ih => cases st with | cons n rest => exact ih hp _ s h
  | text t k ih =>
    have h : (k (s.write neverFails (.chars t) none).2).run dbg neverFails st (s.write neverFails (.chars t) none).1 = .ok x' := h
    show ∃ x, (k (s.write sink (.chars t) none).2).run dbg sink st (s.write sink (.chars t) none).1 = .ok x ∧ _
    rcases write_cases sink s (.chars t) none with ⟨hw, -⟩ | ⟨m, w1, w2, w3, w4, w5⟩
    · rw [hw]
      cases hr : (s.write neverFails (.chars t) none).2 with
      | error e =>
        rw [hr] at h
        exact ⟨x', by rw [gives_same dbg sink neverFails e _ (hp.2 e)]; exact h, .inl rfl⟩
      | ok u => rw [hr] at h; exact ih _ hp.1 st _ h
    · rw [w1]
      exact gives_fails dbg sink _ (hp.2 _) st _ w2 x'
  | «namespace» p u k ih =>
    cases st with | cons b rest =>
    simp only [EndsOr, Prog.run] at h ⊢
    cases hb : Builder.namespace dbg b p u with
    | error f => rw [hb] at h; cases h
    | ok b' => rw [hb] at h; exact ih hp _ s h
  | «attribute» n v k ih =>
    cases st with | cons b rest =>
    simp only [EndsOr, Prog.run] at h ⊢
    cases hb : Builder.attribute b n v with
    | error f => rw [hb] at h; cases h
    | ok b' =>
      rw [hb] at h
      obtain ⟨b', r⟩ := b'
      cases r with
      | ok u => exact ih _ hp.1 _ s h
      | error e =>
        obtain ⟨k', hk, hg⟩ := hp.2 e
        have hg : (k (.error e)).Gives e := by rw [hk]; exact hg
        exact ⟨x', by simp only; rw [gives_same dbg sink neverFails e _ hg]; exact h, .inl rfl⟩
  | start ok fail ih1 ih2 =>
    cases st with | cons b rest =>
    simp only [EndsOr, Prog.run] at h ⊢
    rcases start_write b with ⟨f, hf⟩ | ⟨n, e, a, hst⟩
    · rw [hf] at h; cases h
    · rw [hst] at h ⊢
      rcases write_cases sink s e a with ⟨hw, hk⟩ | ⟨m, w1, w2, w3, w4, w5⟩
      · rw [hw]
        cases hr : s.write neverFails e a with
        | mk s1 r =>
          rw [hr] at h
          cases r with
          | error err => exact ⟨x', by simp only; rw [gives_same dbg sink neverFails err _ (hp.2 err)]; exact h, .inl rfl⟩
          | ok u => exact ih1 hp.1 _ _ h
      · cases hr : s.write sink e a with
        | mk s1 r =>
          rw [hr] at w1 w2
          simp only at w1
          subst w1
          exact gives_fails dbg sink _ (hp.2 _) _ _ w2 x'
  | finish k ih =>
    cases st with | cons b rest =>
    have h : (k (s.write neverFails .stop none).2).run dbg neverFails rest (s.write neverFails .stop none).1 = .ok x' := h
    show ∃ x, (k (s.write sink .stop none).2).run dbg sink rest (s.write sink .stop none).1 = .ok x ∧ _
    rcases write_cases sink s .stop none with ⟨hw, -⟩ | ⟨m, w1, w2, w3, w4, w5⟩
    · rw [hw]
      cases hr : (s.write neverFails .stop none).2 with
      | error e =>
        rw [hr] at h
        exact ⟨x', by rw [gives_same dbg sink neverFails e _ (hp.2 e)]; exact h, .inl rfl⟩
      | ok u => rw [hr] at h; exact ih _ hp.1 rest _ h
    · rw [w1]
      exact gives_fails dbg sink _ (hp.2 _) rest _ w2 x'
  | _ => exact hp.elim

theorem strict_document (dbg : Bool) (sink : Sink) (name : EName) (attrs : AttrProg) (children : Prog [.writer false]) (hc : children.Strict)
    (x' : WState × Except SErr Unit) (h : serializeTo dbg neverFails name attrs children = .ok x') :
    ∃ x, serializeTo dbg sink name attrs children = .ok x ∧ (x = x' ∨ ∃ m, x.1.poison = some (.write m) ∧ x.2 = .error (.write m)) := by
  rcases serializeTo_eq dbg name attrs children with ⟨f, hf⟩ | ⟨e, he⟩ | ⟨n, e, a, heq⟩
  · rw [hf] at h; cases h
  · rw [he] at h
    cases h
    exact ⟨_, he sink, .inl rfl⟩
  · rw [heq] at h ⊢
    rcases write_cases sink { out := [], poison := none, steps := [] } e a with ⟨hw, hk⟩ | ⟨m, w1, w2, w3, w4, w5⟩
    · rw [hw]
      cases hr : ({ out := [], poison := none, steps := [] } : WState).write neverFails e a with
      | mk s r =>
        rw [hr] at h
        cases r with
        | error err => exact ⟨x', h, .inl rfl⟩
        | ok u =>
          simp only at h ⊢
          cases hc' : children.run dbg neverFails (.cons (h := .writer false) n .nil) s with
          | error f => rw [hc'] at h; cases h
          | ok y' =>
            rw [hc'] at h
            cases h
            obtain ⟨y, hy, hyy⟩ := strict_ends dbg sink children hc _ s y' hc'
            rw [hy]
            refine ⟨_, rfl, ?_⟩
            rcases hyy with rfl | ⟨m, h1, h2⟩
            · obtain ⟨s2, r⟩ := y
              cases r with
              | error e => exact .inl rfl
              | ok u =>
                simp only [close]
                rcases write_cases sink s2 .stop none with ⟨hw, -⟩ | ⟨m, w1, w2, w3, w4, w5⟩
                · rw [hw]; exact .inl rfl
                · exact .inr ⟨m, w2, w1⟩
            · exact .inr ⟨m, (close_poisoned sink y h1).2.1, (close_poisoned sink y h1).2.2.1 h2⟩
    · cases hr : ({ out := [], poison := none, steps := [] } : WState).write sink e a with
      | mk s r =>
        rw [hr] at w1 w2
        simp only at w1
        subst w1
        exact ⟨_, rfl, .inr ⟨m, w2, rfl⟩⟩

end SX.Cut
