import Verif.Spec.Local
import Verif.Proof.OpenSer

namespace SX.Open
open SX.Spec SX.Spec.Open

def empty : WState := { out := [], poison := none, steps := [] }

theorem write_accepting {s : WState} (h : s.poison = none) (e : WEvent) (a : Option (EName × List (EName × String))) :
    s.write accepting e a = ({ s with out := s.out ++ [e], steps := s.steps ++ [.wrote e a] }, .ok ()) := by
  simp [WState.write, h, accepting]

theorem start_accepting {b : Builder} {n : Namespaces} {q : WName} {as : List (WName × String)} (h1 : b.ns.finalize = .ok n)
    (h2 : n.resolveElement b.name = .ok q) (h3 : resolveAttrs n b.attrs = .ok as) {s : WState} (h : s.poison = none) :
    b.start accepting s = .ok ({ s with out := s.out ++ [.start q as n.byPrefix], steps := s.steps ++ [.wrote (.start q as n.byPrefix) (some (b.name, b.attrs))] }, .ok n) := by
  simp [Builder.start, h1, h2, h3, write_accepting h]

/-- What a program that ends with an unpoisoned writer does, it does the same with any unpoisoned writer and a destination that takes everything. -/
theorem run_move (dbg : Bool) (sink : Sink) {hs : List Handle} (p : Prog hs) (st : HStates hs) (s s' : WState) (r : Except SErr Unit)
    (h : p.run dbg sink st s = .ok (s', r)) (hc : s'.poison = none) :
    s.poison = none ∧ ∃ es, s'.out = s.out ++ es ∧ ∀ t : WState, t.poison = none →
      ∃ t', p.run dbg accepting st t = .ok (t', r) ∧ t'.poison = none ∧ t'.out = t.out ++ es := by
  induction p generalizing s with
  | ret r =>
    simp only [Prog.run, Except.ok.injEq, Prod.mk.injEq] at h
    obtain ⟨rfl, rfl⟩ := h
    exact ⟨hc, [], by simp, fun t ht => ⟨t, rfl, ht, by simp⟩⟩
  | element name k ih =>
    cases st with | cons n rest =>
    obtain ⟨h1, es, h2, h3⟩ := ih _ _ h
    exact ⟨h1, es, h2, h3⟩
  | text t k ih =>
    simp only [Prog.run] at h
    obtain ⟨h1, es, h2, h3⟩ := ih _ _ _ h
    obtain ⟨g1, g2, g3⟩ := write_clean h1
    refine ⟨g1, .chars t :: es, by rw [h2, g2]; simp, fun u hu => ?_⟩
    obtain ⟨t', k1, k2, k3⟩ := h3 { u with out := u.out ++ [.chars t], steps := u.steps ++ [.wrote (.chars t) none] } hu
    rw [g3] at k1
    exact ⟨t', by simp only [Prog.run, write_accepting hu]; exact k1, k2, by rw [k3]; simp⟩
  | «namespace» p u k ih =>
    cases st with | cons b rest =>
    simp only [Prog.run] at h
    split at h
    · simp at h
    · rename_i b' hb
      obtain ⟨h1, es, h2, h3⟩ := ih _ _ h
      refine ⟨h1, es, h2, fun t ht => ?_⟩
      obtain ⟨t', k1, k2, k3⟩ := h3 t ht
      exact ⟨t', by simp only [Prog.run, hb]; exact k1, k2, k3⟩
  | «attribute» n v k ih =>
    cases st with | cons b rest =>
    simp only [Prog.run] at h
    split at h
    · simp at h
    · rename_i b' r' hb
      obtain ⟨h1, es, h2, h3⟩ := ih _ _ _ h
      refine ⟨h1, es, h2, fun t ht => ?_⟩
      obtain ⟨t', k1, k2, k3⟩ := h3 t ht
      exact ⟨t', by simp only [Prog.run, hb]; exact k1, k2, k3⟩
  | start ok fail ih1 ih2 =>
    cases st with | cons b rest =>
    simp only [Prog.run] at h
    split at h
    · simp at h
    · rename_i s1 n hs
      obtain ⟨n', q, attrs, f1, f2, f3, rfl, h4⟩ := start_cases hs
      obtain ⟨h1, es, h2, h3⟩ := ih1 _ _ h
      obtain ⟨g1, g2, g3⟩ := write_clean h1
      rcases h4 with ⟨-, h4⟩ | ⟨e', h4, -⟩
      · cases h4
        refine ⟨g1, .start q attrs n.byPrefix :: es, by rw [h2, g2]; simp, fun t ht => ?_⟩
        have hst := start_accepting f1 f2 f3 ht
        obtain ⟨t', k1, k2, k3⟩ := h3 { t with out := t.out ++ [.start q attrs n.byPrefix], steps := t.steps ++ [.wrote (.start q attrs n.byPrefix) (some (Builder.name b, Builder.attrs b))] } ht
        exact ⟨t', by simp only [Prog.run, hst]; exact k1, k2, by rw [k3]; simp⟩
      · rw [g3] at h4; simp at h4
    · rename_i s1 e hs
      obtain ⟨_, q, attrs, -, -, -, rfl, h4⟩ := start_cases hs
      obtain ⟨h1, es, h2, h3⟩ := ih2 _ _ _ h
      obtain ⟨g1, g2, g3⟩ := write_clean h1
      rcases h4 with ⟨-, h4⟩ | ⟨e', h4, -⟩
      · simp at h4
      · rw [g3] at h4; simp at h4
  | finish k ih =>
    cases st with | cons b rest =>
    simp only [Prog.run] at h
    obtain ⟨h1, es, h2, h3⟩ := ih _ _ _ h
    obtain ⟨g1, g2, g3⟩ := write_clean h1
    refine ⟨g1, .stop :: es, by rw [h2, g2]; simp, fun u hu => ?_⟩
    obtain ⟨t', k1, k2, k3⟩ := h3 { u with out := u.out ++ [.stop], steps := u.steps ++ [.wrote .stop none] } hu
    rw [g3] at k1
    exact ⟨t', by simp only [Prog.run, write_accepting hu]; exact k1, k2, by rw [k3]; simp⟩
  | dropBuilder k ih =>
    cases st with | cons b rest =>
    obtain ⟨h1, -⟩ := ih _ _ h
    simp [WState.poisonWith] at h1
  | dropWriter k ih =>
    cases st with | cons b rest =>
    obtain ⟨h1, -⟩ := ih _ _ h
    simp [WState.poisonWith] at h1
  | forgetBuilder k ih => cases st with | cons b rest => exact ih _ _ h
  | forgetWriter k ih => cases st with | cons b rest => exact ih _ _ h

/-- A successful run, from anywhere. -/
theorem writes_of_run {dbg : Bool} {sink : Sink} {n : Namespaces} {p : Prog [.writer false]} {s s' : WState}
    (h : doing dbg sink n p s = .ok (s', .ok ())) (hc : s'.poison = none) : s.poison = none ∧ ∃ es, s'.out = s.out ++ es ∧ Writes dbg n p es := by
  obtain ⟨h1, es, h2, h3⟩ := run_move dbg sink p _ s s' _ h hc
  obtain ⟨t', k1, k2, k3⟩ := h3 empty rfl
  exact ⟨h1, es, h2, t', k1, k2, by simpa [empty] using k3⟩

/-- And to anywhere. -/
theorem run_of_writes {dbg : Bool} {n : Namespaces} {p : Prog [.writer false]} {es : List WEvent} (h : Writes dbg n p es) {t : WState} (ht : t.poison = none) :
    ∃ t', doing dbg accepting n p t = .ok (t', .ok ()) ∧ t'.poison = none ∧ t'.out = t.out ++ es := by
  obtain ⟨s, h1, h2, rfl⟩ := h
  obtain ⟨-, es, h3, h4⟩ := run_move dbg accepting p _ _ s _ h1 h2
  obtain ⟨t', k1, k2, k3⟩ := h4 t ht
  exact ⟨t', k1, k2, by rw [k3, h3]; simp⟩

theorem writes_unique {dbg : Bool} {n : Namespaces} {p : Prog [.writer false]} {es es' : List WEvent} (h : Writes dbg n p es) (h' : Writes dbg n p es') : es = es' := by
  obtain ⟨s, h1, -, rfl⟩ := h
  obtain ⟨s', h1', -, rfl⟩ := h'
  rw [h1] at h1'
  cases h1'
  rfl

/-- Several programs write one after another. -/
inductive WritesAll (dbg : Bool) (n : Namespaces) : List (Prog [.writer false]) → List WEvent → Prop where
  | nil : WritesAll dbg n [] []
  | cons {p : Prog [.writer false]} {ps : List (Prog [.writer false])} {es es' : List WEvent} (h : Writes dbg n p es) (r : WritesAll dbg n ps es') :
      WritesAll dbg n (p :: ps) (es ++ es')

theorem writesAll_append {dbg : Bool} {n : Namespaces} {ps qs : List (Prog [.writer false])} {out : List WEvent} :
    WritesAll dbg n (ps ++ qs) out ↔ ∃ a b, WritesAll dbg n ps a ∧ WritesAll dbg n qs b ∧ out = a ++ b := by
  induction ps generalizing out with
  | nil =>
    constructor
    · intro h
      exact ⟨[], out, .nil, h, rfl⟩
    · rintro ⟨a, b, h1, h2, rfl⟩
      cases h1
      exact h2
  | cons p ps ih =>
    constructor
    · intro h
      cases h with
      | cons h r =>
        obtain ⟨a, b, h1, h2, rfl⟩ := ih.mp r
        exact ⟨_, b, .cons h h1, h2, by simp⟩
    · rintro ⟨a, b, h1, h2, rfl⟩
      cases h1 with
      | cons h r =>
        rw [List.append_assoc]
        exact .cons h (ih.mpr ⟨_, b, r, h2, rfl⟩)

theorem writesAll_unique {dbg : Bool} {n : Namespaces} {ps : List (Prog [.writer false])} {es es' : List WEvent} (h : WritesAll dbg n ps es)
    (h' : WritesAll dbg n ps es') : es = es' := by
  induction h generalizing es' with
  | nil => cases h'; rfl
  | cons h r ih =>
    cases h' with
    | cons k r' => rw [writes_unique h k, ih r']

theorem inTurn_writes {dbg : Bool} {n : Namespaces} (ps : List (Prog [.writer false])) (s s' : WState)
    (h : inTurn (ps.map (doing dbg accepting n)) s = .ok (s', .ok ())) (hc : s'.poison = none) :
    s.poison = none ∧ ∃ es, s'.out = s.out ++ es ∧ WritesAll dbg n ps es := by
  induction ps generalizing s with
  | nil =>
    simp only [List.map_nil, inTurn, Except.ok.injEq, Prod.mk.injEq, and_true] at h
    subst h
    exact ⟨hc, [], by simp, .nil⟩
  | cons p ps ih =>
    simp only [List.map_cons, inTurn] at h
    split at h
    · simp at h
    · simp at h
    · rename_i s1 h1
      obtain ⟨k1, es, k2, k3⟩ := ih s1 h
      obtain ⟨g1, es1, g2, g3⟩ := writes_of_run h1 k1
      exact ⟨g1, es1 ++ es, by rw [k2, g2]; simp, .cons g3 k3⟩

theorem writes_inTurn {dbg : Bool} {n : Namespaces} {ps : List (Prog [.writer false])} {es : List WEvent} (h : WritesAll dbg n ps es) (t : WState) (ht : t.poison = none) :
    ∃ t', inTurn (ps.map (doing dbg accepting n)) t = .ok (t', .ok ()) ∧ t'.poison = none ∧ t'.out = t.out ++ es := by
  induction h generalizing t with
  | nil => exact ⟨t, rfl, ht, by simp⟩
  | cons h r ih =>
    obtain ⟨t1, h1, h2, h3⟩ := run_of_writes h ht
    obtain ⟨t2, k1, k2, k3⟩ := ih t1 h2
    exact ⟨t2, by simp only [List.map_cons, inTurn, h1]; exact k1, k2, by rw [k3, h3]; simp⟩

/-- A program that lets others write in turn. -/
theorem writes_turns {dbg : Bool} {n : Namespaces} {q : Prog [.writer false]} {ps : List (Prog [.writer false])}
    (h : ∀ s, doing dbg accepting n q s = inTurn (ps.map (doing dbg accepting n)) s) {out : List WEvent} : Writes dbg n q out ↔ WritesAll dbg n ps out := by
  constructor
  · rintro ⟨s, h1, h2, rfl⟩
    rw [h] at h1
    obtain ⟨-, es, k1, k2⟩ := inTurn_writes ps _ s h1 h2
    rw [k1]
    simpa using k2
  · intro hw
    obtain ⟨t', k1, k2, k3⟩ := writes_inTurn hw empty rfl
    exact ⟨t', by rw [h]; exact k1, k2, by simpa [empty] using k3⟩

theorem writes_struct {dbg : Bool} {n : Namespaces} {ns : List (String × String)} {fields : List SField} {out : List WEvent} :
    Writes dbg n (structSer ns fields).children out ↔ WritesAll dbg n (elementsOf fields ++ (flattenedOf fields).map Ser.children) out :=
  writes_turns fun s => structSer_run dbg accepting n ns fields s

theorem writesAll_one {dbg : Bool} {n : Namespaces} {p : Prog [.writer false]} {out : List WEvent} : WritesAll dbg n [p] out ↔ Writes dbg n p out := by
  constructor
  · intro h
    cases h with
    | cons h r => cases r; simpa using h
  · intro h
    have := WritesAll.cons h .nil
    simpa using this

theorem writes_then_ret {dbg : Bool} {n : Namespaces} {p : Prog [.writer false]} {out : List WEvent} :
    Writes dbg n (andThen p (.ret (.ok ()))) out ↔ Writes dbg n p out := by
  rw [writes_turns (ps := [p]), writesAll_one]
  intro s
  rw [andThen_run]
  simp only [inTurn, List.map_cons, List.map_nil]
  cases doing dbg accepting n p s with
  | error f => rfl
  | ok x =>
    obtain ⟨s', r⟩ := x
    cases r <;> rfl

theorem writes_vec {dbg : Bool} {n : Namespaces} {l : List Ser} {name : EName} {out : List WEvent} :
    Writes dbg n (fieldVec l name) out ↔ WritesAll dbg n (l.map fun v => fieldOne v name) out :=
  writes_turns fun s => by rw [fieldVec_run, List.map_map]; rfl

/-- An element: its start, what is in it, its end. -/
theorem writes_one {dbg : Bool} {n : Namespaces} {v : Ser} {name : EName} {out : List WEvent} :
    Writes dbg n (fieldOne v name) out ↔ ∃ b m q as es, v.attrs.run dbg (Builder.new name (n.child name.ns)) = .ok (b, .ok ()) ∧ b.ns.finalize = .ok m ∧
      m.resolveElement b.name = .ok q ∧ resolveAttrs m b.attrs = .ok as ∧ Writes dbg m v.children es ∧ out = .start q as m.byPrefix :: (es ++ [.stop]) := by
  constructor
  · rintro ⟨s, h1, h2, rfl⟩
    rw [fieldOne_run] at h1
    split at h1
    · simp at h1
    · simp at h1
    · rename_i b hb
      split at h1
      · simp at h1
      · simp at h1
      · rename_i s1 m hs
        obtain ⟨m', q, as, f1, f2, f3, rfl, h4⟩ := start_cases hs
        split at h1
        · simp at h1
        · simp at h1
        · rename_i s2 hc
          simp only [Except.ok.injEq] at h1
          have hw : (s2.write accepting .stop none).1.poison = none := by rw [h1]; exact h2
          obtain ⟨g1, g2, -⟩ := write_clean hw
          obtain ⟨k1, es, k2, k3⟩ := writes_of_run hc g1
          obtain ⟨l1, l2, l3⟩ := write_clean k1
          rcases h4 with ⟨-, h4⟩ | ⟨e', h4, -⟩
          · cases h4
            refine ⟨b, m, q, as, es, hb, f1, f2, f3, k3, ?_⟩
            rw [h1] at g2
            rw [g2, k2, l2]
            simp
          · rw [l3] at h4; simp at h4
  · rintro ⟨b, m, q, as, es, h1, h2, h3, h4, h5, rfl⟩
    have hst := start_accepting h2 h3 h4 (s := empty) rfl
    obtain ⟨t', k1, k2, k3⟩ := run_of_writes h5 (t := { empty with out := empty.out ++ [.start q as m.byPrefix], steps := empty.steps ++ [.wrote (.start q as m.byPrefix) (some (b.name, b.attrs))] }) rfl
    refine ⟨{ t' with out := t'.out ++ [.stop], steps := t'.steps ++ [.wrote .stop none] }, ?_, k2, ?_⟩
    · rw [fieldOne_run, h1]
      simp only
      rw [show b.start accepting { out := [], poison := none, steps := [] } = _ from hst]
      simp only
      rw [k1]
      simp only [write_accepting k2]
    · simp only [k3]
      simp [empty]

/-- One of several programs is exchanged. -/
theorem exchange {dbg : Bool} {n : Namespaces} {a b : List (Prog [.writer false])} {q q' p p' : Prog [.writer false]}
    (ih : ∀ out, Writes dbg n q out → ∃ m A B C, out = A ++ B ++ C ∧ Writes dbg m p B ∧ ∀ out', Writes dbg n q' out' ↔ ∃ B', Writes dbg m p' B' ∧ out' = A ++ B' ++ C)
    {out : List WEvent} (h : WritesAll dbg n (a ++ q :: b) out) :
    ∃ m A B C, out = A ++ B ++ C ∧ Writes dbg m p B ∧ ∀ out', WritesAll dbg n (a ++ q' :: b) out' ↔ ∃ B', Writes dbg m p' B' ∧ out' = A ++ B' ++ C := by
  obtain ⟨x, y, h1, h2, rfl⟩ := writesAll_append.mp h
  cases h2 with
  | @cons _ _ es es' h3 h4 =>
    obtain ⟨m, A, B, C, rfl, k1, k2⟩ := ih es h3
    refine ⟨m, x ++ A, B, C ++ es', by simp, k1, fun out' => ?_⟩
    rw [writesAll_append]
    constructor
    · rintro ⟨x', y', g1, g2, rfl⟩
      have := writesAll_unique g1 h1
      subst this
      cases g2 with
      | @cons _ _ fs fs' g3 g4 =>
        have := writesAll_unique g4 h4
        subst this
        obtain ⟨B', l1, rfl⟩ := (k2 fs).mp g3
        exact ⟨B', l1, by simp⟩
    · rintro ⟨B', l1, rfl⟩
      exact ⟨x, _, h1, .cons ((k2 _).mpr ⟨B', l1, rfl⟩) h4, by simp⟩

theorem elementsOf_at (pre post : List SField) (name : DName) (w : EName → Prog [.writer false]) :
    elementsOf (pre ++ ⟨name, .element w⟩ :: post) = elementsOf pre ++ w name.expanded :: elementsOf post := by
  simp [elementsOf]

theorem flattenedOf_elem (pre post : List SField) (name : DName) (w : EName → Prog [.writer false]) :
    flattenedOf (pre ++ ⟨name, .element w⟩ :: post) = flattenedOf pre ++ flattenedOf post := by
  simp [flattenedOf]

theorem flattenedOf_at (pre post : List SField) (name : DName) (v : Ser) :
    flattenedOf (pre ++ ⟨name, .flatten v⟩ :: post) = flattenedOf pre ++ v :: flattenedOf post := by
  simp [flattenedOf]

theorem elementsOf_flat (pre post : List SField) (name : DName) (v : Ser) :
    elementsOf (pre ++ ⟨name, .flatten v⟩ :: post) = elementsOf pre ++ elementsOf post := by
  simp [elementsOf]

theorem edit_local {dbg : Bool} {q q' p p' : Prog [.writer false]} (h : Edit q q' p p') (n : Namespaces) (out : List WEvent) (hw : Writes dbg n q out) :
    ∃ m A B C, out = A ++ B ++ C ∧ Writes dbg m p B ∧ ∀ out', Writes dbg n q' out' ↔ ∃ B', Writes dbg m p' B' ∧ out' = A ++ B' ++ C := by
  induction h generalizing n out with
  | here => exact ⟨n, [], out, [], by simp, hw, fun out' => by simp⟩
  | field h ih =>
    rw [writes_struct, elementsOf_at, flattenedOf_elem, List.append_assoc, List.cons_append] at hw
    obtain ⟨m, A, B, C, h1, h2, h3⟩ := exchange (ih n) hw
    refine ⟨m, A, B, C, h1, h2, fun out' => ?_⟩
    rw [← h3, writes_struct, elementsOf_at, flattenedOf_elem, List.append_assoc, List.cons_append]
  | flatten h ih =>
    rw [writes_struct, elementsOf_flat, flattenedOf_at, List.map_append, List.map_cons, ← List.append_assoc] at hw
    obtain ⟨m, A, B, C, h1, h2, h3⟩ := exchange (ih n) hw
    refine ⟨m, A, B, C, h1, h2, fun out' => ?_⟩
    rw [← h3, writes_struct, elementsOf_flat, flattenedOf_at, List.map_append, List.map_cons, ← List.append_assoc]
  | payload h ih =>
    obtain ⟨m, A, B, C, h1, h2, h3⟩ := ih n out (writes_then_ret.mp hw)
    exact ⟨m, A, B, C, h1, h2, fun out' => by rw [← h3]; exact writes_then_ret⟩
  | opt h ih =>
    obtain ⟨m, A, B, C, h1, h2, h3⟩ := ih n out (writes_then_ret.mp hw)
    exact ⟨m, A, B, C, h1, h2, fun out' => by rw [← h3]; exact writes_then_ret⟩
  | item h ih =>
    rw [writes_vec, List.map_cons, List.map_nil, writesAll_one] at hw
    obtain ⟨m, A, B, C, h1, h2, h3⟩ := ih n out hw
    exact ⟨m, A, B, C, h1, h2, fun out' => by rw [← h3, writes_vec, List.map_cons, List.map_nil, writesAll_one]⟩
  | @items name a l l' b p p' h ih =>
    rw [writes_vec, List.map_append, List.map_append, writesAll_append] at hw
    obtain ⟨xy, z, h1, h2, rfl⟩ := hw
    obtain ⟨x, y, h3, h4, rfl⟩ := writesAll_append.mp h1
    have key : ∀ (r : List Ser) (o : List WEvent), Writes dbg n (fieldVec (a ++ r ++ b) name) o ↔
        WritesAll dbg n (a.map (fun v => fieldOne v name) ++ fieldVec r name :: b.map fun v => fieldOne v name) o := by
      intro r o
      rw [writes_vec, List.map_append, List.map_append, List.append_assoc, writesAll_append, writesAll_append]
      constructor
      · rintro ⟨o1, o2, k1, k2, rfl⟩
        obtain ⟨o3, o4, k3, k4, rfl⟩ := writesAll_append.mp k2
        exact ⟨o1, _, k1, .cons (writes_vec.mpr k3) k4, rfl⟩
      · rintro ⟨o1, o2, k1, k2, rfl⟩
        cases k2 with
        | cons k3 k4 => exact ⟨o1, _, k1, writesAll_append.mpr ⟨_, _, writes_vec.mp k3, k4, rfl⟩, rfl⟩
    have hw' : Writes dbg n (fieldVec (a ++ l ++ b) name) (x ++ y ++ z) := by
      rw [writes_vec, List.map_append, List.map_append, writesAll_append]
      exact ⟨_, z, h1, h2, rfl⟩
    obtain ⟨m, A, B, C, g1, g2, g3⟩ := exchange (ih n) ((key l _).mp hw')
    exact ⟨m, A, B, C, g1, g2, fun out' => by rw [← g3]; exact key l' out'⟩
  | @one name v v' p p' ha h ih =>
    obtain ⟨b, m, q, as, es, h1, h2, h3, h4, h5, rfl⟩ := writes_one.mp hw
    obtain ⟨m', A, B, C, rfl, k1, k2⟩ := ih m es h5
    refine ⟨m', .start q as m.byPrefix :: A, B, C ++ [.stop], by simp, k1, fun out' => ?_⟩
    rw [writes_one, ← ha, h1]
    constructor
    · rintro ⟨b', m2, q', as', es', g1, g2, g3, g4, g5, rfl⟩
      cases g1
      rw [h2] at g2
      cases g2
      rw [h3] at g3
      cases g3
      rw [h4] at g4
      cases g4
      obtain ⟨B', l1, rfl⟩ := (k2 es').mp g5
      exact ⟨B', l1, by simp⟩
    · rintro ⟨B', l1, rfl⟩
      exact ⟨b, m, q, as, A ++ B' ++ C, rfl, h2, h3, h4, (k2 _).mpr ⟨B', l1, rfl⟩, by simp⟩

end SX.Open
