import Verif.Proof.CostWrite

/- What is copied and tried when writing succeeds, from what is written. -/
namespace SX.Cost
open Spec Spec.Cost

theorem nsPut_length {m m' : SMap String} {p u : String} {b : Bool} (h : nsPut m p u = (m', b)) : m'.length ≤ m.length + 1 := by
  unfold nsPut at h
  split at h
  · cases h; omega
  · cases h; rw [insertNew_length]; omega

theorem searchPrefix_least (m : SMap String) (p u : String) (fuel i : Nat) (m' : SMap String) (q : String) (h : (searchPrefix m p u fuel i).2 = .ok (m', q)) :
    m'.length ≤ m.length + 1 ∧ 1 ≤ (searchPrefix m p u fuel i).1 := by
  induction fuel generalizing i with
  | zero => simp only [searchPrefix] at h; cases h
  | succ fuel ih =>
    simp only [searchPrefix] at h ⊢
    revert h
    have hl := fun m' b => nsPut_length (m := m) (p := numbered p i) (u := u) (m' := m') (b := b)
    revert hl
    generalize nsPut m (numbered p i) u = q
    obtain ⟨m1, _ | _⟩ := q
    · intro _ h
      exact ⟨(ih _ h).1, by dsimp only; omega⟩
    · intro hl h
      cases h
      exact ⟨hl _ _ rfl, Nat.le_refl _⟩

theorem assignRequired_least (m : SMap String) (u : String) (e : NsEntry) (m' : SMap String) (q : String) (h : (assignRequired m u e).2 = .ok (m', q)) :
    m'.length ≤ m.length + 1 ∧ 1 ≤ (assignRequired m u e).1 := by
  have hs : ∀ x : Nat × Except Fault (SMap String × String),
      x = (if e.requested = "" then searchPrefix m "ns" u (m.length + 1) 1 else searchPrefix m e.requested u (m.length + 1) 2) →
      x.2 = .ok (m', q) → m'.length ≤ m.length + 1 ∧ 1 ≤ x.1 := by
    intro x hx
    split at hx <;> subst hx <;> exact searchPrefix_least _ _ _ _ _ _ _
  simp only [assignRequired] at h ⊢
  split at h
  · rename_i hc
    simp only [hc, if_true]
    revert h
    have hl := fun m' b => nsPut_length (m := m) (p := e.requested) (u := u) (m' := m') (b := b)
    revert hl
    generalize nsPut m e.requested u = q
    obtain ⟨m1, _ | _⟩ := q
    · intro _ h
      exact ⟨(hs _ rfl h).1, by dsimp only; omega⟩
    · intro hl h
      cases h
      exact ⟨hl _ _ rfl, Nat.le_refl _⟩
  · rename_i hc
    simp only [hc]
    exact hs _ rfl h

theorem passRequired_least (m : SMap String) (l : NsBuilder) (m' : SMap String) (l' : NsBuilder) (h : (passRequired m l).2 = .ok (m', l')) :
    m'.length ≤ m.length + (passRequired m l).1 := by
  induction l generalizing m l' with
  | nil => simp only [passRequired] at h; cases h; simp [passRequired]
  | cons x l ih =>
    obtain ⟨u, e⟩ := x
    simp only [passRequired] at h ⊢
    split at h
    · rename_i hc
      simp only [hc, if_true]
      revert h
      have ha := assignRequired_least m u e
      revert ha
      generalize assignRequired m u e = q
      obtain ⟨n, _ | ⟨m1, p⟩⟩ := q
      · intro _ h; cases h
      · intro ha
        obtain ⟨h1, h2⟩ := ha _ _ rfl
        have hi := ih m1
        dsimp only at h2 ⊢
        revert hi
        generalize passRequired m1 l = q
        obtain ⟨k, _ | ⟨m2, l2⟩⟩ := q
        · intro _ h; cases h
        · intro hi h
          cases h
          have := hi _ rfl
          dsimp only at this ⊢
          omega
    · rename_i hc
      simp only [hc]
      revert h
      have hi := ih m
      revert hi
      generalize passRequired m l = q
      obtain ⟨k, _ | ⟨m2, l2⟩⟩ := q
      · intro _ h; cases h
      · intro hi h
        cases h
        exact hi _ rfl

theorem passInherited_least (m : SMap String) (l : NsBuilder) : (passInherited m l).2.1.length ≤ m.length + (passInherited m l).1 := by
  induction l generalizing m with
  | nil => simp [passInherited]
  | cons x l ih =>
    obtain ⟨u, e⟩ := x
    simp only [passInherited]
    split
    · exact ih m
    · have hl := fun m' b => nsPut_length (m := m) (p := e.requested) (u := u) (m' := m') (b := b)
      revert hl
      generalize nsPut m e.requested u = q
      obtain ⟨m1, _ | _⟩ := q
      all_goals
        intro hl
        have h1 := hl _ _ rfl
        have h2 := ih m1
        show (passInherited m1 l).2.1.length ≤ m.length + ((passInherited m1 l).1 + 1)
        omega

theorem finalize_least (b : NsBuilder) (n : Namespaces) (h : (finalize b).2 = .ok n) : n.byPrefix.length ≤ (finalize b).1 := by
  simp only [finalize] at h ⊢
  have h1 := passRequired_least [] b
  revert h h1
  generalize passRequired [] b = q
  obtain ⟨k, _ | ⟨m, l⟩⟩ := q
  · intro h _; cases h
  · intro h h1
    have h2 := passInherited_least m l
    have h3 := h1 _ _ rfl
    have h : Except.ok (ε := Fault) { byUrl := (passInherited m l).2.2, byPrefix := (passInherited m l).2.1 : Namespaces } = .ok n := h
    cases h
    have h3 : m.length ≤ 0 + k := h3
    show (passInherited m l).2.1.length ≤ k + (passInherited m l).1
    omega

theorem start_least (sink : Sink) (b : Builder) (s s' : WState) (t : WTally) (n : Namespaces) (h : start sink b s = (t, .ok (s', .ok n))) :
    t.copied = 0 ∧ ∃ q as, s'.out = s.out ++ [.start q as n.byPrefix] ∧ n.byPrefix.length ≤ t.tried := by
  simp only [start] at h
  have hf := finalize_least b.ns
  revert h hf
  generalize finalize b.ns = q
  obtain ⟨k, _ | n'⟩ := q
  · intro h; cases h
  · dsimp only
    cases n'.resolveElement b.name with
    | error f => intro h; cases h
    | ok q =>
      dsimp only
      cases resolveAttrs n' b.attrs with
      | error f => intro h; cases h
      | ok attrs =>
        dsimp only
        have ho := write_out sink s (.start q attrs n'.byPrefix) (some (b.name, b.attrs))
        revert ho
        generalize s.write sink _ _ = w
        obtain ⟨s1, _ | _⟩ := w
        · intro _ h; cases h
        · intro ho h hf
          cases h
          rcases ho with ⟨-, -, ho, -⟩ | ⟨-, -, x, hx⟩
          · exact ⟨rfl, _, _, ho, hf _ rfl⟩
          · cases hx

/-- How many mappings each writer has. -/
def counts : {hs : List Handle} → HStates hs → List Nat
  | [], .nil => []
  | .builder :: _, .cons _ rest => counts rest
  | .writer _ :: _, .cons n rest => (Namespaces.byPrefix n).length :: counts rest

/-- The mappings copied for the builder on top. -/
def pending : {hs : List Handle} → HStates hs → Nat
  | [], .nil => 0
  | .builder :: _, .cons _ rest => (counts rest).headD 0
  | .writer _ :: _, .cons _ _ => 0

/-- Builders are on top only. -/
def WritersBelow (hs : List Handle) : Prop := ∀ h ∈ hs.tail, h ≠ .builder

theorem pending_below {h : Handle} {hs : List Handle} (hw : WritersBelow (h :: hs)) (st : HStates hs) : pending st = 0 := by
  cases st with
  | nil => rfl
  | @cons h' hs' x rest =>
    cases h' with
    | builder => exact absurd rfl (hw .builder (by simp))
    | writer o => rfl

theorem run_copied (dbg : Bool) (sink : Sink) {hs : List Handle} (p : Prog hs) (hp : p.Strict) (hw : WritersBelow hs) (st : HStates hs) (s s' : WState)
    (h : (run dbg sink p st s).2 = .ok (s', .ok ())) :
    ∃ es, s'.out = s.out ++ es ∧ (run dbg sink p st s).1.copied + pending st = inherited (counts st) es ∧ mappingsIn es ≤ (run dbg sink p st s).1.tried := by
  induction p generalizing s with
  | ret r =>
    simp only [run] at h
    cases h
    cases st with | cons n rest =>
    exact ⟨[], by simp, by simp [run, WTally.zero, pending, inherited], by simp [mappingsIn]⟩
  | @element o hs name k ih =>
    cases st with | cons n rest =>
    have hw' : WritersBelow (.builder :: .writer o :: hs) := by
      intro x hx
      rcases List.mem_cons.mp hx with rfl | hx
      · simp
      · exact hw x hx
    obtain ⟨es, h1, h2, h3⟩ := ih hp hw' _ _ h
    refine ⟨es, h1, ?_, ?_⟩
    · refine Eq.trans ?_ h2
      simp only [run, WTally.add]
      show _ + _ + 0 = _ + (Namespaces.byPrefix n).length
      omega
    · simp only [run, WTally.add] at h3 ⊢
      omega
  | text x k ih =>
    simp only [run] at h ⊢
    rcases write_out sink s (.chars x) none with ⟨h1, h2, h3, h4⟩ | ⟨h1, h2, e, h4⟩
    · rw [h4] at h ⊢
      obtain ⟨es, k1, k2, k3⟩ := ih _ hp.1 hw _ _ h
      refine ⟨.chars x :: es, by rw [k1, h3]; simp, ?_, ?_⟩
      · simp only [WTally.add, inherited]; omega
      · simp only [WTally.add, mappingsIn]; omega
    · rw [h4] at h ⊢
      obtain ⟨s2, g1, g2⟩ := gives_zero dbg sink e (k (.error e)) (hp.2 e) st (s.write sink (.chars x) none).1
      rw [g1] at h
      cases h
  | «namespace» p u k ih =>
    cases st with | cons b rest =>
    simp only [run] at h ⊢
    revert h
    generalize Builder.namespace dbg b p u = q
    obtain _ | b := q
    · intro h; cases h
    · intro h; exact ih hp hw _ _ h
  | «attribute» n v k ih =>
    cases st with | cons b rest =>
    simp only [run] at h ⊢
    revert h
    generalize Builder.attribute b n v = q
    obtain _ | ⟨b', r'⟩ := q
    · intro h; cases h
    · intro h
      cases r' with
      | ok _ => exact ih _ hp.1 hw _ _ h
      | error e =>
        dsimp only at h ⊢
        obtain ⟨k', g1, g2⟩ := hp.2 e
        obtain ⟨s2, g3, g4⟩ := gives_zero dbg sink e (k (.error e)) (by rw [g1]; exact g2) (.cons (h := .builder) b' rest) s
        rw [g3] at h
        cases h
  | start ok fail ih1 ih2 =>
    cases st with | cons b rest =>
    simp only [run] at h ⊢
    have hs := start_least sink b s
    revert hs h
    generalize start sink b s = q
    obtain ⟨t', _ | ⟨s1, _ | n⟩⟩ := q
    · intro h _; cases h
    · intro h hs
      rename_i e
      obtain ⟨s2, k1, k2⟩ := gives_zero dbg sink e (fail e) (hp.2 e) rest s1
      dsimp only at h
      rw [k1] at h
      cases h
    · intro h hs
      obtain ⟨g1, q, as, g2, g3⟩ := hs _ _ _ rfl
      obtain ⟨es, k1, k2, k3⟩ := ih1 hp.1 hw _ _ h
      refine ⟨.start q as n.byPrefix :: es, by rw [k1, g2]; simp, ?_, ?_⟩
      · have k2 : _ + 0 = inherited (n.byPrefix.length :: counts rest) es := k2
        show (t'.add _).copied + (counts rest).headD 0 = (counts rest).headD 0 + inherited (n.byPrefix.length :: counts rest) es
        rw [← k2]
        simp only [WTally.add]
        omega
      · simp only [WTally.add, mappingsIn]
        omega
  | finish k ih =>
    cases st with | cons b rest =>
    simp only [run] at h ⊢
    have hz := pending_below hw rest
    have hw' : WritersBelow _ := fun x hx => hw x (List.mem_of_mem_tail hx)
    rcases write_out sink s .stop none with ⟨h1, h2, h3, h4⟩ | ⟨h1, h2, e, h4⟩
    · rw [h4] at h ⊢
      obtain ⟨es, k1, k2, k3⟩ := ih _ hp.1 hw' _ _ h
      refine ⟨.stop :: es, by rw [k1, h3]; simp, ?_, ?_⟩
      · show (WTally.add _ _).copied + 0 = inherited (counts rest) es
        simp only [WTally.add]
        omega
      · simp only [WTally.add, mappingsIn]; omega
    · rw [h4] at h ⊢
      obtain ⟨s2, g1, g2⟩ := gives_zero dbg sink e (k (.error e)) (hp.2 e) rest (s.write sink .stop none).1
      rw [g1] at h
      cases h
  | dropBuilder k ih => exact hp.elim
  | dropWriter k ih => exact hp.elim
  | forgetBuilder k ih => exact hp.elim
  | forgetWriter k ih => exact hp.elim

theorem inherited_stop (st : List Nat) (l : List WEvent) : inherited st (l ++ [.stop]) = inherited st l := by
  induction l generalizing st with
  | nil => simp [inherited]
  | cons e l ih => cases e <;> simp only [List.cons_append, inherited, ih]

theorem mappingsIn_append (a b : List WEvent) : mappingsIn (a ++ b) = mappingsIn a + mappingsIn b := by
  induction a with
  | nil => simp [mappingsIn]
  | cons e a ih => cases e <;> simp only [List.cons_append, mappingsIn, ih] <;> omega

theorem serializeTo_copied (dbg : Bool) (sink : Sink) (name : EName) (attrs : AttrProg) (children : Prog [.writer false]) (hc : children.Strict) (s : WState)
    (t : WTally) (h : serializeTo dbg sink name attrs children = (t, .ok (s, .ok ()))) :
    t.copied = inherited [] s.out ∧ mappingsIn s.out ≤ t.tried := by
  simp only [serializeTo] at h
  revert h
  generalize attrs.run dbg (Builder.new name []) = q
  obtain _ | ⟨b, _ | _⟩ := q
  · intro h; cases h
  · intro h; cases h
  · dsimp only
    have hs := start_least sink b { out := [], poison := none, steps := [] }
    revert hs
    generalize start sink b _ = q
    obtain ⟨t1, _ | ⟨s1, _ | n⟩⟩ := q
    · intro _ h; cases h
    · intro _ h; cases h
    · intro hs h
      obtain ⟨g1, q, as, g2, g3⟩ := hs _ _ _ rfl
      have hr := fun s' => run_copied dbg sink children hc (by simp [WritersBelow]) (.cons (h := .writer false) n .nil) s1 s'
      dsimp only at h
      revert h hr
      generalize run dbg sink children _ s1 = q
      obtain ⟨t2, _ | ⟨s2, _ | _⟩⟩ := q
      · intro h _; cases h
      · intro h hr; cases h
      · intro h hr
        obtain ⟨es, h1, h2, h3⟩ := hr _ rfl
        have e1 : _ = t := congrArg Prod.fst h
        have e2 := Except.ok.inj (congrArg Prod.snd h)
        have ho := write_out sink s2 .stop none
        rw [e2] at ho
        rcases ho with ⟨-, -, ho, -⟩ | ⟨-, ho, x, hx⟩
        · have ho : s.out = s2.out ++ [.stop] := ho
          have ho' : s.out = .start q as n.byPrefix :: (es ++ [.stop]) := by rw [ho, h1, g2]; simp
          rw [← e1, ho']
          have h2 : t2.copied + 0 = inherited [n.byPrefix.length] es := h2
          simp only [WTally.add, inherited, inherited_stop, mappingsIn, mappingsIn_append, List.headD_nil]
          dsimp only at h2 h3
          exact ⟨by omega, by omega⟩
        · cases hx

end SX.Cost
