import Verif.Spec.Writer
import Verif.Proof.Namespaces

/-
Balance and sticky failures of the writer.
-/
namespace SX
open Spec

/-! ### Invariants of runs -/

theorem start_cases {sink : Sink} {b : Builder} {s s' : WState} {r : Except SErr Namespaces} (h : b.start sink s = .ok (s', r)) :
    ∃ n q attrs, b.ns.finalize = .ok n ∧ n.resolveElement b.name = .ok q ∧ resolveAttrs n b.attrs = .ok attrs ∧
      s' = (s.write sink (.start q attrs n.byPrefix) (some (b.name, b.attrs))).1 ∧
      (((s.write sink (.start q attrs n.byPrefix) (some (b.name, b.attrs))).2 = .ok () ∧ r = .ok n) ∨
       ∃ e, (s.write sink (.start q attrs n.byPrefix) (some (b.name, b.attrs))).2 = .error e ∧ r = .error e) := by
  unfold Builder.start at h
  split at h
  · simp at h
  · rename_i n hn
    split at h
    · simp at h
    · rename_i q hq
      split at h
      · simp at h
      · rename_i attrs ha
        refine ⟨n, q, attrs, hn, hq, ha, ?_⟩
        split at h
        · rename_i s1 e he
          simp only [Except.ok.injEq, Prod.mk.injEq] at h
          rw [he]
          exact ⟨h.1.symm, .inr ⟨e, rfl, h.2.symm⟩⟩
        · rename_i s1 he
          simp only [Except.ok.injEq, Prod.mk.injEq] at h
          rw [he]
          exact ⟨h.1.symm, .inl ⟨rfl, h.2.symm⟩⟩

/-- What every write and every abandoned handle preserves, a whole run preserves. -/
theorem Prog.run_inv (dbg : Bool) (sink : Sink) (I : WState → Prop) (hw : ∀ s e a, I s → I (s.write sink e a).1)
    (hp : ∀ s e, I s → I (s.poisonWith e)) {hs : List Handle} (p : Prog hs) (st : HStates hs) (s s' : WState)
    (r : Except SErr Unit) (h : p.run dbg sink st s = .ok (s', r)) (hi : I s) : I s' := by
  induction p generalizing s with
  | ret r => simp only [Prog.run, Except.ok.injEq, Prod.mk.injEq] at h; rw [← h.1]; exact hi
  | element name k ih =>
    cases st with | cons n rest =>
    exact ih _ _ h hi
  | text t k ih =>
    simp only [Prog.run] at h
    exact ih _ _ _ h (hw _ _ _ hi)
  | «namespace» p u k ih =>
    cases st with | cons b rest =>
    simp only [Prog.run] at h
    split at h
    · simp at h
    · exact ih _ _ h hi
  | «attribute» n v k ih =>
    cases st with | cons b rest =>
    simp only [Prog.run] at h
    split at h
    · simp at h
    · exact ih _ _ _ h hi
  | start ok fail ih1 ih2 =>
    cases st with | cons b rest =>
    simp only [Prog.run] at h
    split at h
    · simp at h
    · rename_i s1 n hs
      obtain ⟨_, _, _, -, -, -, rfl, -⟩ := start_cases hs
      exact ih1 _ _ h (hw _ _ _ hi)
    · rename_i s1 e hs
      obtain ⟨_, _, _, -, -, -, rfl, -⟩ := start_cases hs
      exact ih2 _ _ _ h (hw _ _ _ hi)
  | finish k ih =>
    cases st with | cons b rest =>
    simp only [Prog.run] at h
    exact ih _ _ _ h (hw _ _ _ hi)
  | dropBuilder k ih => cases st with | cons b rest => exact ih _ _ h (hp _ _ hi)
  | dropWriter k ih => cases st with | cons b rest => exact ih _ _ h (hp _ _ hi)
  | forgetBuilder k ih => cases st with | cons b rest => exact ih _ _ h hi
  | forgetWriter k ih => cases st with | cons b rest => exact ih _ _ h hi

/-- The same for a whole serialization. -/
theorem serializeTo_inv (dbg : Bool) (sink : Sink) (I : WState → Prop) (hw : ∀ s e a, I s → I (s.write sink e a).1)
    (hp : ∀ s e, I s → I (s.poisonWith e)) (h0 : I { out := [], poison := none, steps := [] }) (name : EName) (attrs : AttrProg)
    (children : Prog [.writer false]) (s : WState) (r : Except SErr Unit)
    (h : serializeTo dbg sink name attrs children = .ok (s, r)) : I s := by
  unfold serializeTo at h
  simp only at h
  split at h
  · simp at h
  · simp only [Except.ok.injEq, Prod.mk.injEq] at h
    rw [← h.1]
    exact hp _ _ h0
  · split at h
    · simp at h
    · rename_i hs
      obtain ⟨_, _, _, -, -, -, rfl, -⟩ := start_cases hs
      simp only [Except.ok.injEq, Prod.mk.injEq] at h
      rw [← h.1]
      exact hw _ _ _ h0
    · rename_i hs
      obtain ⟨_, _, _, -, -, -, rfl, -⟩ := start_cases hs
      split at h
      · simp at h
      · rename_i hr
        simp only [Except.ok.injEq, Prod.mk.injEq] at h
        rw [← h.1]
        exact hp _ _ (Prog.run_inv dbg sink I hw hp _ _ _ _ _ hr (hw _ _ _ h0))
      · rename_i hr
        simp only [Except.ok.injEq] at h
        have := Prog.run_inv dbg sink I hw hp _ _ _ _ _ hr (hw _ _ _ h0)
        have h2 := hw _ .stop none this
        rw [h] at h2
        exact h2

/-! ### Failures -/

/-- The record of steps agrees with the state, and the first failure sticks. -/
structure Sticky (s : WState) : Prop where
  out : s.out = s.steps.filterMap stepEvent
  clean : s.poison = none → ∀ x ∈ s.steps, stepError x = none
  stuck : ∀ e, s.poison = some e → ∃ pre x post, s.steps = pre ++ x :: post ∧ (∀ y ∈ pre, stepError y = none) ∧
    stepError x = some e ∧ ∀ y ∈ post, StuckWith e y

theorem Sticky.write {s : WState} (h : Sticky s) (sink : Sink) (e : WEvent) (a : Option (EName × List (EName × String))) :
    Sticky (s.write sink e a).1 := by
  unfold WState.write
  split
  · rename_i p hp
    refine ⟨?_, ?_, ?_⟩
    · simp [h.out, stepEvent]
    · intro hn
      simp [hp] at hn
    · intro e' he'
      simp only [hp, Option.some.injEq] at he'
      subst he'
      obtain ⟨pre, x, post, h1, h2, h3, h4⟩ := h.stuck p hp
      refine ⟨pre, x, post ++ [Step.failed e p], by simp [h1], h2, h3, ?_⟩
      intro y hy
      rcases List.mem_append.mp hy with hy | hy
      · exact h4 y hy
      · simp only [List.mem_singleton] at hy
        subst hy
        rfl
  · rename_i hp
    split
    · rename_i m hm
      refine ⟨?_, ?_, ?_⟩
      · simp [h.out, stepEvent]
      · intro hn; simp at hn
      · intro e' he'
        simp only [Option.some.injEq] at he'
        subst he'
        exact ⟨s.steps, _, [], rfl, h.clean hp, rfl, by simp⟩
    · refine ⟨?_, ?_, ?_⟩
      · simp [h.out, stepEvent]
      · intro hn x hx
        rcases List.mem_append.mp hx with hx | hx
        · exact h.clean hp x hx
        · simp only [List.mem_singleton] at hx
          subst hx
          rfl
      · intro e' he'
        simp [hp] at he'

theorem Sticky.poisonWith {s : WState} (h : Sticky s) (e : SErr) : Sticky (s.poisonWith e) := by
  unfold WState.poisonWith
  refine ⟨?_, ?_, ?_⟩
  · simp [h.out, stepEvent]
  · intro hn; simp at hn
  · intro e' he'
    simp only [Option.some.injEq] at he'
    cases hp : s.poison with
    | none =>
      rw [hp] at he'
      simp only [Option.getD_none] at he'
      subst he'
      exact ⟨s.steps, _, [], rfl, h.clean hp, rfl, by simp⟩
    | some p =>
      rw [hp] at he'
      simp only [Option.getD_some] at he'
      subst he'
      obtain ⟨pre, x, post, h1, h2, h3, h4⟩ := h.stuck p hp
      refine ⟨pre, x, post ++ [.abandoned e], by simp [h1], h2, h3, ?_⟩
      intro y hy
      rcases List.mem_append.mp hy with hy | hy
      · exact h4 y hy
      · simp only [List.mem_singleton] at hy
        subst hy
        trivial

theorem serializeTo_sticky {dbg : Bool} {sink : Sink} {name : EName} {attrs : AttrProg} {children : Prog [.writer false]}
    {s : WState} {r : Except SErr Unit} (h : serializeTo dbg sink name attrs children = .ok (s, r)) : Sticky s :=
  serializeTo_inv dbg sink Sticky (fun _ _ _ h => h.write ..) (fun _ _ h => h.poisonWith _)
    ⟨rfl, fun _ => by simp, fun _ h => by simp at h⟩ name attrs children s r h

/-! ### Balance -/

/-- Events that close `n` elements opened before them, and all that they open. -/
inductive Closes : Nat → List WEvent → Prop where
  | nil : Closes 0 []
  | chars {n : Nat} {es : List WEvent} (s : String) : Closes n es → Closes n (.chars s :: es)
  | start {n : Nat} {es : List WEvent} (q : WName) (a : List (WName × String)) (ns : SMap String) :
      Closes (n + 1) es → Closes n (.start q a ns :: es)
  | stop {n : Nat} {es : List WEvent} : Closes n es → Closes (n + 1) (.stop :: es)

/-- The events between the closing tags. -/
def segments (f : WForest) (fs : List WForest) : List WEvent := f.events ++ fs.flatMap fun g => .stop :: g.events

theorem Closes.split {n : Nat} {es : List WEvent} (h : Closes n es) : ∃ f fs, fs.length = n ∧ es = segments f fs := by
  induction h with
  | nil => exact ⟨.nil, [], rfl, rfl⟩
  | chars s _ ih =>
    obtain ⟨f, fs, h1, rfl⟩ := ih
    exact ⟨.chars s f, fs, h1, rfl⟩
  | start q a ns _ ih =>
    obtain ⟨f, fs, h1, rfl⟩ := ih
    cases fs with
    | nil => simp at h1
    | cons g fs =>
      refine ⟨.elem q a ns f g, fs, by simpa using h1, ?_⟩
      simp [segments, WForest.events]
  | stop _ ih =>
    obtain ⟨f, fs, h1, rfl⟩ := ih
    exact ⟨.nil, f :: fs, by simp [h1], by simp [segments, WForest.events]⟩

/-- The number of elements a program has opened itself. -/
def ownedWriters : List Handle → Nat
  | [] => 0
  | .writer true :: hs => ownedWriters hs + 1
  | _ :: hs => ownedWriters hs

theorem write_clean {s : WState} {sink : Sink} {e : WEvent} {a : Option (EName × List (EName × String))}
    (h : (s.write sink e a).1.poison = none) :
    s.poison = none ∧ (s.write sink e a).1.out = s.out ++ [e] ∧ (s.write sink e a).2 = .ok () := by
  unfold WState.write at h ⊢
  cases hp : s.poison with
  | some p => simp [hp] at h
  | none =>
    simp only [hp] at h ⊢
    cases hs : sink s.out e with
    | some m => simp [hs] at h
    | none => simp

theorem write_ok {s : WState} {sink : Sink} {e : WEvent} {a : Option (EName × List (EName × String))}
    (h : (s.write sink e a).2 = .ok ()) : (s.write sink e a).1.poison = none := by
  unfold WState.write at h ⊢
  cases hp : s.poison with
  | some p => simp [hp] at h
  | none =>
    simp only [hp] at h ⊢
    cases hs : sink s.out e with
    | some m => simp [hs] at h
    | none => simp [hp]

theorem write_poisoned {s : WState} {sink : Sink} {e : WEvent} {a : Option (EName × List (EName × String))} {p : SErr}
    (h : s.poison = some p) : (s.write sink e a).1.poison = some p ∧ (s.write sink e a).2 = .error p := by
  unfold WState.write
  simp [h]

/-- What a program that ends with an unpoisoned writer has written. -/
theorem Prog.run_closes (dbg : Bool) (sink : Sink) {hs : List Handle} (p : Prog hs) (hf : NoForget p) (st : HStates hs)
    (s s' : WState) (r : Except SErr Unit) (h : p.run dbg sink st s = .ok (s', r)) (hc : s'.poison = none) :
    s.poison = none ∧ ∃ es, s'.out = s.out ++ es ∧ Closes (ownedWriters hs) es := by
  induction p generalizing s with
  | ret r =>
    simp only [Prog.run, Except.ok.injEq, Prod.mk.injEq] at h
    rw [h.1]
    exact ⟨hc, [], by simp, .nil⟩
  | element name k ih =>
    cases st with | cons n rest =>
    exact ih hf _ _ h
  | text t k ih =>
    simp only [Prog.run] at h
    obtain ⟨h1, es, h2, h3⟩ := ih _ (hf _) _ _ h
    obtain ⟨g1, g2, -⟩ := write_clean h1
    exact ⟨g1, .chars t :: es, by rw [h2, g2]; simp, h3.chars t⟩
  | «namespace» p u k ih =>
    cases st with | cons b rest =>
    simp only [Prog.run] at h
    split at h
    · simp at h
    · exact ih hf _ _ h
  | «attribute» n v k ih =>
    cases st with | cons b rest =>
    simp only [Prog.run] at h
    split at h
    · simp at h
    · exact ih _ (hf _) _ _ h
  | start ok fail ih1 ih2 =>
    cases st with | cons b rest =>
    simp only [Prog.run] at h
    split at h
    · simp at h
    · rename_i s1 n hs
      obtain ⟨n', q, attrs, -, -, -, rfl, -⟩ := start_cases hs
      obtain ⟨h1, es, h2, h3⟩ := ih1 hf.1 _ _ h
      obtain ⟨g1, g2, -⟩ := write_clean h1
      exact ⟨g1, .start q attrs n'.byPrefix :: es, by rw [h2, g2]; simp, h3.start _ _ _⟩
    · rename_i s1 e hs
      obtain ⟨_, q, attrs, -, -, -, rfl, h4⟩ := start_cases hs
      obtain ⟨h1, es, h2, h3⟩ := ih2 _ (hf.2 _) _ _ h
      obtain ⟨g1, g2, g3⟩ := write_clean h1
      rcases h4 with ⟨-, h4⟩ | ⟨e', h4, -⟩
      · simp at h4
      · rw [g3] at h4; simp at h4
  | finish k ih =>
    cases st with | cons b rest =>
    simp only [Prog.run] at h
    obtain ⟨h1, es, h2, h3⟩ := ih _ (hf _) _ _ h
    obtain ⟨g1, g2, -⟩ := write_clean h1
    exact ⟨g1, .stop :: es, by rw [h2, g2]; simp, h3.stop⟩
  | dropBuilder k ih =>
    cases st with | cons b rest =>
    obtain ⟨h1, -⟩ := ih hf _ _ h
    simp [WState.poisonWith] at h1
  | dropWriter k ih =>
    cases st with | cons b rest =>
    obtain ⟨h1, -⟩ := ih hf _ _ h
    simp [WState.poisonWith] at h1
  | forgetBuilder k ih => cases st with | cons b rest => exact ih hf _ _ h
  | forgetWriter k ih => exact hf.elim

/-- A successful serialization has written one element. -/
theorem serializeTo_balanced {dbg : Bool} {sink : Sink} {name : EName} {attrs : AttrProg} {children : Prog [.writer false]}
    (hf : NoForget children) {s : WState} (h : serializeTo dbg sink name attrs children = .ok (s, .ok ())) :
    ∃ q a ns f, s.out = documentEvents q a ns f := by
  unfold serializeTo at h
  simp only at h
  split at h
  · simp at h
  · simp at h
  · split at h
    · simp at h
    · simp at h
    · rename_i s1 n hs
      obtain ⟨n', q, as, -, -, -, rfl, -⟩ := start_cases hs
      split at h
      · simp at h
      · simp at h
      · rename_i s2 hr
        simp only [Except.ok.injEq] at h
        have h2 : (s2.write sink .stop none).2 = .ok () := by rw [h]
        have h3 := write_ok h2
        obtain ⟨g1, g2, -⟩ := write_clean h3
        obtain ⟨k1, es, k2, k3⟩ := Prog.run_closes dbg sink children hf _ _ _ _ hr g1
        obtain ⟨-, m2, -⟩ := write_clean k1
        obtain ⟨f, fs, l1, rfl⟩ := k3.split
        simp only [ownedWriters, List.length_eq_zero_iff] at l1
        subst l1
        rw [h] at g2
        simp only at g2
        exact ⟨q, as, n'.byPrefix, f, by rw [g2, k2, m2]; simp [documentEvents, segments]⟩

end SX
