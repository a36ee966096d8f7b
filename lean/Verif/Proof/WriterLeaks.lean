import Verif.Proof.WriterDoc

/-
The elements left open are those whose writers were leaked.
-/
namespace SX
open Spec

theorem leftOpen_cons (e : WEvent) (l : List WEvent) : leftOpen (e :: l) = eventWeight e + leftOpen l := by
  simp [leftOpen]

theorem leftOpen_append (l l' : List WEvent) : leftOpen (l ++ l') = leftOpen l + leftOpen l' := by
  simp [leftOpen]

theorem leftOpen_forest (f : WForest) : leftOpen f.events = 0 := by
  induction f with
  | nil => rfl
  | elem q a ns c rest ih1 ih2 =>
    simp only [WForest.events, leftOpen_cons, leftOpen_append, ih1, ih2, eventWeight]
    rfl
  | chars s rest ih => simp only [WForest.events, leftOpen_cons, ih, eventWeight]; rfl

/-- What a program that ends with an unpoisoned writer has written. -/
theorem Prog.run_leaks (dbg : Bool) (sink : Sink) {hs : List Handle} (p : Prog hs) (st : HStates hs) (hst : st.Seen) (s s' : WState)
    (r : Except SErr Unit) (h : p.run dbg sink st s = .ok (s', r)) (hc : s'.poison = none) :
    ∃ es, s'.out = s.out ++ es ∧ leftOpen es = (Prog.leaks p st.builders : Int) - ownedWriters hs ∧
      (Prog.leaks p st.builders = 0 → Closes (ownedWriters hs) es) := by
  induction p generalizing s with
  | ret r' =>
    simp only [Prog.run, Except.ok.injEq, Prod.mk.injEq] at h
    obtain ⟨rfl, rfl⟩ := h
    exact ⟨[], by simp, rfl, fun _ => .nil⟩
  | element name k ih =>
    cases st with | cons n rest =>
    exact ih _ (all_builder (b := Builder.new name (Namespaces.child n name.ns)) rfl hst) _ h
  | text t k ih =>
    simp only [Prog.run] at h
    have hw := write_clean (run_poisoned h hc)
    rw [hw.2.2] at h
    obtain ⟨es, h1, h2, h3⟩ := ih _ _ hst _ h
    exact ⟨.chars t :: es, by rw [h1, hw.2.1]; simp, by rw [leftOpen_cons, h2]; simp [eventWeight, Prog.leaks], fun hl => (h3 hl).chars t⟩
  | «namespace» p u k ih =>
    cases st with | cons b rest =>
    simp only [Prog.run] at h
    split at h
    · simp at h
    · rename_i b' hb
      obtain ⟨g1, g2, g3⟩ := namespace_asks hst.1 hb
      have := ih _ (all_builder (b := b') g1 hst.2) _ h
      simp only [Prog.leaks, HStates.builders] at this ⊢
      rw [g2, g3] at this
      exact this
  | «attribute» n v k ih =>
    cases st with | cons b rest =>
    simp only [Prog.run] at h
    obtain ⟨b', hb, g1, g2, g3, -⟩ := attribute_asks (b := b) hst.1 n v
    rw [hb] at h
    simp only at h
    have := ih _ _ (all_builder (b := b') g1 hst.2) _ h
    simp only [Prog.leaks, HStates.builders] at this ⊢
    rw [g2, g3] at this
    exact this
  | start ok fail ih1 ih2 =>
    cases st with | cons b rest =>
    simp only [Prog.run] at h
    split at h
    · simp at h
    · rename_i s1 n hs
      obtain ⟨n', q, as, -, -, -, rfl, -⟩ := start_cases hs
      have hw := write_clean (run_poisoned h hc)
      obtain ⟨es, h1, h2, h3⟩ := ih1 _ (all_writer trivial hst.2) _ h
      simp only [HStates.builders] at h2 h3
      refine ⟨.start q as n'.byPrefix :: es, by rw [h1, hw.2.1]; simp, ?_, fun hl => (h3 hl).start _ _ _⟩
      rw [leftOpen_cons, h2]
      simp only [eventWeight, Prog.leaks, HStates.builders, ownedWriters]
      omega
    · rename_i s1 e hs
      exfalso
      obtain ⟨n', q, as, h1, h2, h3, rfl, h4⟩ := start_cases hs
      have hw := write_clean (run_poisoned h hc)
      rcases h4 with ⟨-, h4⟩ | ⟨e', h4, -⟩
      · simp at h4
      · rw [hw.2.2] at h4; simp at h4
  | finish k ih =>
    cases st with | cons b rest =>
    simp only [Prog.run] at h
    have hw := write_clean (run_poisoned h hc)
    rw [hw.2.2] at h
    obtain ⟨es, h1, h2, h3⟩ := ih _ _ hst.2 _ h
    refine ⟨.stop :: es, by rw [h1, hw.2.1]; simp, ?_, fun hl => (h3 hl).stop⟩
    rw [leftOpen_cons, h2]
    simp only [eventWeight, Prog.leaks, HStates.builders, ownedWriters]
    omega
  | dropBuilder k ih => cases st with | cons b rest => simp only [Prog.run] at h; exact absurd (run_poisoned h hc) (poisonWith_poison _ _)
  | dropWriter k ih => cases st with | cons b rest => simp only [Prog.run] at h; exact absurd (run_poisoned h hc) (poisonWith_poison _ _)
  | forgetBuilder k ih => cases st with | cons b rest => exact ih _ hst.2 _ h
  | forgetWriter k ih =>
    cases st with | cons b rest =>
    obtain ⟨es, h1, h2, -⟩ := ih _ hst.2 _ h
    refine ⟨es, h1, ?_, fun hl => by simp [Prog.leaks] at hl⟩
    rw [h2]
    simp only [Prog.leaks, HStates.builders, ownedWriters]
    omega

/-- A successful serialization leaves as many elements open as writers were leaked. -/
theorem serializeTo_leaks {dbg : Bool} {sink : Sink} {name : EName} {attrs : AttrProg} {children : Prog [.writer false]}
    {s : WState} (h : serializeTo dbg sink name attrs children = .ok (s, .ok ())) :
    leftOpen s.out = Prog.leaks children [] ∧ (Prog.leaks children [] = 0 → ∃ q a ns f, s.out = documentEvents q a ns f) := by
  unfold serializeTo at h
  simp only at h
  split at h
  · simp at h
  · simp at h
  · split at h
    · simp at h
    · simp at h
    · rename_i s1 n hs
      obtain ⟨n', q, as, -, -, -, rfl, -⟩ := start_cases hs
      split at h
      · simp at h
      · simp at h
      · rename_i s2 hr
        simp only [Except.ok.injEq] at h
        have h2 : (s2.write sink .stop none).2 = .ok () := by rw [h]
        have h3 := write_ok h2
        obtain ⟨g1, g2, -⟩ := write_clean h3
        obtain ⟨es, k2, k3, k4⟩ := Prog.run_leaks dbg sink children _ (all_writer trivial all_nil) _ _ _ hr g1
        obtain ⟨-, m2, -⟩ := write_clean (run_poisoned hr g1)
        rw [h] at g2
        simp only at g2
        simp only [HStates.builders, ownedWriters] at k3 k4
        have hout : s.out = .start q as n'.byPrefix :: (es ++ [.stop]) := by rw [g2, k2, m2]; simp
        constructor
        · rw [hout, leftOpen_cons, leftOpen_append, k3]
          simp only [eventWeight, leftOpen_cons]
          simp [leftOpen]
          omega
        · intro hl
          obtain ⟨f, fs, l1, rfl⟩ := (k4 hl).split
          simp only [List.length_eq_zero_iff] at l1
          subst l1
          exact ⟨q, as, n'.byPrefix, f, by rw [hout]; simp [documentEvents, segments]⟩

theorem leaks_noForget {hs : List Handle} (p : Prog hs) (hf : NoForget p) (op : List (EName × List (EName × String))) :
    Prog.leaks p op = 0 := by
  induction p generalizing op with
  | ret r => rfl
  | element n k ih => exact ih hf _
  | text s k ih => exact ih _ (hf _) _
  | «namespace» p u k ih => exact ih hf _
  | «attribute» n v k ih => cases op with
    | nil => rfl
    | cons x op => exact ih _ (hf _) _
  | start ok fail ih1 ih2 => cases op with
    | nil => rfl
    | cons x op => exact ih1 hf.1 _
  | finish k ih => exact ih _ (hf _) _
  | dropBuilder k ih => rfl
  | dropWriter k ih => rfl
  | forgetBuilder k ih => cases op with
    | nil => rfl
    | cons x op => exact ih hf _
  | forgetWriter k ih => exact hf.elim

end SX
