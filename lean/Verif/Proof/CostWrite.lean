import Verif.Model.CostWrite
import Verif.Spec.CostWrite
import Verif.Proof.CostPrefix
import Verif.Proof.DeriveSerStops
import Verif.Proof.WriterDoc

/- The counts for writing. -/
namespace SX.Cost
open Spec Spec.Cost

theorem start_value (sink : Sink) (b : Builder) (s : WState) : (start sink b s).2 = b.start sink s := by
  simp only [start, Builder.start]
  rw [← finalize_value]
  generalize finalize b.ns = q
  obtain ⟨t, _ | n⟩ := q
  · rfl
  · dsimp only
    cases n.resolveElement b.name with
    | error f => rfl
    | ok q =>
      dsimp only
      cases resolveAttrs n b.attrs with
      | error f => rfl
      | ok attrs =>
        dsimp only
        generalize s.write sink _ _ = q
        obtain ⟨s1, _ | _⟩ := q <;> rfl

theorem run_value (dbg : Bool) (sink : Sink) {hs : List Handle} (p : Prog hs) (st : HStates hs) (s : WState) :
    (run dbg sink p st s).2 = p.run dbg sink st s := by
  induction p generalizing s with
  | ret r => rfl
  | element name k ih => cases st with | cons n rest => exact ih _ _
  | text t k ih => exact ih _ _ _
  | «namespace» p u k ih =>
    cases st with | cons b rest =>
    simp only [run, Prog.run]
    generalize Builder.namespace dbg b p u = q
    cases q with
    | error f => rfl
    | ok b => exact ih _ _
  | «attribute» n v k ih =>
    cases st with | cons b rest =>
    simp only [run, Prog.run]
    generalize Builder.attribute b n v = q
    obtain _ | ⟨b, r⟩ := q
    · rfl
    · exact ih _ _ _
  | start ok fail ih1 ih2 =>
    cases st with | cons b rest =>
    simp only [run, Prog.run]
    have hs := start_value sink b s
    rw [← hs]
    generalize start sink b s = q
    obtain ⟨t, _ | ⟨s1, _ | n⟩⟩ := q
    · rfl
    · exact ih2 _ _ _
    · exact ih1 _ _
  | finish k ih => cases st with | cons b rest => exact ih _ _ _
  | dropBuilder k ih => cases st with | cons b rest => exact ih _ _
  | dropWriter k ih => cases st with | cons b rest => exact ih _ _
  | forgetBuilder k ih => cases st with | cons b rest => exact ih _ _
  | forgetWriter k ih => cases st with | cons b rest => exact ih _ _

theorem serializeTo_value (dbg : Bool) (sink : Sink) (name : EName) (attrs : AttrProg) (children : Prog [.writer false]) :
    (serializeTo dbg sink name attrs children).2 = SX.serializeTo dbg sink name attrs children := by
  simp only [serializeTo, SX.serializeTo]
  generalize attrs.run dbg (Builder.new name []) = q
  obtain _ | ⟨b, _ | _⟩ := q
  · rfl
  · rfl
  · dsimp only
    rw [← start_value]
    generalize start sink b _ = q
    obtain ⟨t, _ | ⟨s1, _ | n⟩⟩ := q
    · rfl
    · rfl
    · dsimp only
      rw [← run_value]
      generalize run dbg sink children _ s1 = q
      obtain ⟨t, _ | ⟨s1, _ | n⟩⟩ := q <;> rfl

/-! ### Mappings -/

/-- A builder whose mappings are to URLs of `U`. -/
def BOk (U : List String) (b : Builder) : Prop := b.ns.Ok ∧ ∀ u ∈ SMap.keys b.ns, u ∈ U

/-- The same for a writer; each has one mapping at most. -/
def NOk (U : List String) (n : Namespaces) : Prop := n.byPrefix.length ≤ U.length ∧ ∀ x ∈ n.byPrefix, x.2 ∈ U

theorem keys_set_mem {α : Type} {m : SMap α} {k u : String} {a : α} (h : u ∈ SMap.keys (SMap.set k a m)) : u = k ∨ u ∈ SMap.keys m := by
  obtain ⟨x, hx, rfl⟩ := List.mem_map.mp h
  rcases SMap.mem_set hx with rfl | hx
  · exact .inl rfl
  · exact .inr (List.mem_map_of_mem hx)

theorem bok_namespace {U : List String} {b b' : Builder} (hb : BOk U b) {dbg : Bool} {p u : String} (hu : u ∈ U) (h : b.namespace dbg p u = .ok b') : BOk U b' := by
  simp only [Builder.namespace] at h
  split at h
  · cases h
  · rename_i ns hns
    cases h
    refine ⟨hb.1.insert hns, ?_⟩
    intro w hw
    dsimp only at hw
    unfold NsBuilder.insert at hns
    split at hns
    · cases hns
    · split at hns <;> cases hns <;> rcases keys_set_mem hw with rfl | hw
      · exact hu
      · exact hb.2 w hw
      · exact hu
      · exact hb.2 w hw

theorem bok_attribute {U : List String} {b b' : Builder} (hb : BOk U b) {n : EName} {v : String} {r : Except SErr Unit} (h : b.attribute n v = .ok (b', r)) : BOk U b' := by
  simp only [Builder.attribute] at h
  split at h
  · split at h
    · cases h
    · cases h; exact hb
  · cases h
    refine ⟨hb.1.attribute _, ?_⟩
    intro w hw
    dsimp only at hw
    unfold NsBuilder.attribute at hw
    split at hw
    · exact hb.2 w hw
    · rename_i e he
      rcases keys_set_mem hw with rfl | hw
      · exact hb.2 _ (List.mem_map_of_mem (SMap.get_mem he))
      · exact hb.2 w hw

theorem childLoop_keys (ns : String) (m : SMap String) (found : Bool) (c : NsBuilder) (u : String) (h : u ∈ SMap.keys (childLoop ns m found c)) :
    u ∈ SMap.keys c ∨ ∃ x ∈ m, x.2 = u := by
  induction m generalizing found c with
  | nil => exact .inl h
  | cons x m ih =>
    rcases ih _ _ h with h | ⟨y, hy, rfl⟩
    · rcases keys_set_mem h with rfl | h
      · exact .inr ⟨x, by simp, rfl⟩
      · exact .inl h
    · exact .inr ⟨y, by simp [hy], rfl⟩

theorem bok_child {U : List String} {n : Namespaces} (hn : NOk U n) (name : EName) : BOk U (Builder.new name (n.child name.ns)) := by
  refine ⟨Namespaces.child_ok _ _, ?_⟩
  intro u hu
  rcases childLoop_keys _ _ _ _ _ hu with h | ⟨x, hx, rfl⟩
  · simp [SMap.keys] at h
  · exact hn.2 x hx

theorem nok_finalize {U : List String} {b : Builder} (hb : BOk U b) {n : Namespaces} (h : b.ns.finalize = .ok n) : NOk U n := by
  obtain ⟨n', h1, h2, h3⟩ := finalize_spec b.ns hb.1
  rw [h] at h1
  cases h1
  have hk : n.byUrl.keys = SMap.keys b.ns := by rw [← h3, keys_unassigned]
  have hmem : ∀ x ∈ n.byPrefix, ∃ e, n.byUrl.get x.2 = some e ∧ e.assigned = some x.1 := by
    intro x hx
    exact (h2.iff x.1 x.2).mp (SMap.mem_get h2.prefixes hx)
  have hU : ∀ x ∈ n.byPrefix, x.2 ∈ U := by
    intro x hx
    obtain ⟨e, he, -⟩ := hmem x hx
    exact hb.2 _ (hk ▸ List.mem_map_of_mem (SMap.get_mem he))
  refine ⟨?_, hU⟩
  have := nodup_length_le (n.byPrefix.map Prod.snd) U ?_ ?_
  · simpa using this
  · rw [List.nodup_iff_pairwise_ne, List.pairwise_map]
    have hp := h2.prefixes
    rw [SMap.keys, List.nodup_iff_pairwise_ne, List.pairwise_map] at hp
    refine List.Pairwise.imp_of_mem ?_ hp
    intro x y hx hy hne heq
    obtain ⟨e, he, ha⟩ := hmem x hx
    obtain ⟨e', he', ha'⟩ := hmem y hy
    rw [heq, he'] at he
    cases he
    rw [ha'] at ha
    exact hne (Option.some.inj ha).symm
  · intro u hu
    obtain ⟨x, hx, rfl⟩ := List.mem_map.mp hu
    exact hU x hx

theorem tried_bound (r l n : Nat) (h1 : r ≤ l) (h2 : l ≤ n) : r * (r + 1) + 2 * (l - r) ≤ n * (n + 1) := by
  have h3 : r * (r + 1) + 2 * (l - r) ≤ l * (l + 1) := by
    obtain ⟨d, rfl⟩ := Nat.le.dest h1
    have : r + d - r = d := by omega
    rw [this]
    cases d with
    | zero => simp
    | succ d =>
      have e : (r + (d + 1)) * (r + (d + 1) + 1) = r * (r + 1) + r * (d + 1) + (d + 1) * (r + (d + 1) + 1) := by
        simp only [Nat.add_mul, Nat.mul_add]; omega
      rw [e]
      have : (d + 1) * 2 ≤ (d + 1) * (r + (d + 1) + 1) := Nat.mul_le_mul_left _ (by omega)
      omega
  exact Nat.le_trans h3 (Nat.mul_le_mul h2 (by omega))

/-- Bounds on copied mappings and on prefixes tried. -/
def Bounded (N : Nat) (t : WTally) : Prop := t.copied ≤ t.elements * N ∧ 2 * t.tried ≤ t.starts * (N * (N + 1))

theorem Bounded.add {N : Nat} {a b : WTally} (ha : Bounded N a) (hb : Bounded N b) : Bounded N (a.add b) := by
  obtain ⟨a1, a2⟩ := ha
  obtain ⟨b1, b2⟩ := hb
  constructor
  · simp only [WTally.add, Nat.add_mul]; omega
  · simp only [WTally.add, Nat.add_mul]; omega

theorem Bounded.zero {N : Nat} : Bounded N .zero := by simp [Bounded, WTally.zero]

theorem start_bounded {U : List String} (sink : Sink) {b : Builder} (hb : BOk U b) (s : WState) : Bounded U.length (start sink b s).1 := by
  have ht := finalize_tried b.ns
  have hl := nodup_length_le (SMap.keys b.ns) U hb.1.nodup hb.2
  have hr := required_le b.ns
  have hl' : List.length b.ns ≤ U.length := by simpa [SMap.keys] using hl
  have := tried_bound _ _ _ hr hl'
  simp only [start]
  revert ht
  generalize finalize b.ns = q
  obtain ⟨t, _ | n⟩ := q
  · intro ht; simp only [Bounded]; omega
  · intro ht
    dsimp only at ht ⊢
    have key : ∀ w, Bounded U.length ⟨0, 0, 1, t, w⟩ := by intro w; simp only [Bounded]; omega
    split
    · exact key _
    · split
      · exact key _
      · split <;> exact key _

theorem run_bounded {U : List String} (dbg : Bool) (sink : Sink) {hs : List Handle} (p : Prog hs) (hp : Prog.Mappings (fun _ u => u ∈ U) p)
    (st : HStates hs) (hst : st.All (BOk U) (NOk U)) (s : WState) : Bounded U.length (run dbg sink p st s).1 := by
  induction p generalizing s with
  | ret r => exact .zero
  | element name k ih =>
    cases st with | cons n rest =>
    refine Bounded.add ?_ (ih hp _ (all_builder (bok_child hst.1 name) hst) s)
    have := hst.1.1
    simp only [Bounded]; omega
  | text t k ih =>
    simp only [run]
    exact Bounded.add (by simp [Bounded]) (ih _ (hp _) _ hst _)
  | «namespace» p u k ih =>
    cases st with | cons b rest =>
    simp only [run]
    split
    · exact .zero
    · rename_i b' hb'
      exact ih hp.2 _ (all_builder (bok_namespace hst.1 hp.1 hb') hst.2) _
  | «attribute» n v k ih =>
    cases st with | cons b rest =>
    simp only [run]
    split
    · exact .zero
    · rename_i b' r hb'
      exact ih _ (hp _) _ (all_builder (bok_attribute hst.1 hb') hst.2) _
  | start ok fail ih1 ih2 =>
    cases st with | cons b rest =>
    have hb := start_bounded sink hst.1 s
    have hv := start_value sink b s
    simp only [run]
    revert hb hv
    generalize start sink b s = q
    obtain ⟨t, _ | ⟨s1, _ | n⟩⟩ := q
    · intro hb _; exact hb
    · intro hb _; exact hb.add (ih2 _ (hp.2 _) _ hst.2 _)
    · intro hb hv
      obtain ⟨n', q, as, h1, h2, h3, -, h4⟩ := start_cases hv.symm
      have : n' = n := by
        rcases h4 with ⟨-, h4⟩ | ⟨e, -, h4⟩
        · exact (Except.ok.inj h4).symm
        · cases h4
      subst this
      exact hb.add (ih1 hp.1 _ (all_writer (nok_finalize hst.1 h1) hst.2) _)
  | finish k ih =>
    cases st with | cons b rest =>
    simp only [run]
    exact Bounded.add (by simp [Bounded]) (ih _ (hp _) _ hst.2 _)
  | dropBuilder k ih => cases st with | cons b rest => exact ih hp _ hst.2 _
  | dropWriter k ih => cases st with | cons b rest => exact ih hp _ hst.2 _
  | forgetBuilder k ih => cases st with | cons b rest => exact ih hp _ hst.2 _
  | forgetWriter k ih => cases st with | cons b rest => exact ih hp _ hst.2 _

theorem attrs_bok {U : List String} {dbg : Bool} (a : AttrProg) (ha : AttrProg.Mappings (fun _ u => u ∈ U) a) {b b' : Builder} (hb : BOk U b)
    {r : Except SErr Unit} (h : a.run dbg b = .ok (b', r)) : BOk U b' := by
  induction a generalizing b with
  | ret r => simp only [AttrProg.run] at h; cases h; exact hb
  | «namespace» p u k ih =>
    simp only [AttrProg.run] at h
    split at h
    · cases h
    · rename_i b1 h1
      exact ih ha.2 (bok_namespace hb ha.1 h1) h
  | «attribute» n v k ih =>
    simp only [AttrProg.run] at h
    split at h
    · cases h
    · rename_i b1 r1 h1
      exact ih _ (ha _) (bok_attribute hb h1) h

theorem serializeTo_bounded {U : List String} (dbg : Bool) (sink : Sink) (name : EName) (attrs : AttrProg) (children : Prog [.writer false])
    (ha : AttrProg.Mappings (fun _ u => u ∈ U) attrs) (hc : Prog.Mappings (fun _ u => u ∈ U) children) :
    Bounded U.length (serializeTo dbg sink name attrs children).1 := by
  have one : Bounded U.length ⟨1, 0, 0, 0, 0⟩ := by simp [Bounded]
  have last : Bounded U.length ⟨0, 0, 0, 0, 1⟩ := by simp [Bounded]
  simp only [serializeTo]
  split
  · exact one
  · exact one
  · rename_i b hb
    have hb' : BOk U b := attrs_bok attrs ha ⟨NsBuilder.Ok.nil, by simp [Builder.new, SMap.keys]⟩ hb
    have hs := start_bounded sink hb' { out := [], poison := none, steps := [] }
    have hv := start_value sink b { out := [], poison := none, steps := [] }
    revert hs hv
    generalize start sink b _ = q
    obtain ⟨t, _ | ⟨s1, _ | n⟩⟩ := q
    · intro h _; exact one.add h
    · intro h _; exact one.add h
    · intro h hv
      obtain ⟨n', q, as, h1, h2, h3, -, h4⟩ := start_cases hv.symm
      have : n' = n := by
        rcases h4 with ⟨-, h4⟩ | ⟨e, -, h4⟩
        · exact (Except.ok.inj h4).symm
        · cases h4
      subst this
      have hr := run_bounded dbg sink children hc (.cons (h := .writer false) n' .nil) (all_writer (nok_finalize hb' h1) all_nil) s1
      dsimp only
      revert hr
      generalize run dbg sink children _ s1 = q
      obtain ⟨t', _ | ⟨s2, _ | n⟩⟩ := q
      · intro hr; exact (one.add h).add hr
      · intro hr; exact (one.add h).add hr
      · intro hr; exact ((one.add h).add hr).add last

/-! ### Events -/

theorem startTags_append (a b : List WEvent) : startTags (a ++ b) = startTags a + startTags b := by
  induction a with
  | nil => simp [startTags]
  | cons e a ih => cases e <;> simp only [List.cons_append, startTags, ih] <;> omega

theorem write_out (sink : Sink) (s : WState) (e : WEvent) (a : Option (EName × List (EName × String))) :
    (s.poison = none ∧ (s.write sink e a).1.poison = none ∧ (s.write sink e a).1.out = s.out ++ [e] ∧ (s.write sink e a).2 = .ok ()) ∨
      ((s.write sink e a).1.poison ≠ none ∧ (s.write sink e a).1.out = s.out ∧ ∃ x, (s.write sink e a).2 = .error x) := by
  unfold WState.write
  cases hp : s.poison with
  | some x => exact .inr ⟨by simp, rfl, _, rfl⟩
  | none =>
    dsimp only
    cases hs : sink s.out e with
    | some m => exact .inr ⟨by simp, rfl, _, rfl⟩
    | none => exact .inl ⟨rfl, rfl, rfl, rfl⟩

/-- The events written are among those given to xml-rs, and all of them if nothing failed. -/
def Accounted (s s' : WState) (t : WTally) : Prop :=
  s'.out.length ≤ s.out.length + t.writes ∧
    (s'.poison = none → s.poison = none ∧ s'.out.length = s.out.length + t.writes ∧ startTags s'.out = startTags s.out + t.starts)

theorem Accounted.trans {s s' s'' : WState} {t t' : WTally} (h : Accounted s s' t) (h' : Accounted s' s'' t') : Accounted s s'' (t.add t') := by
  obtain ⟨h1, h2⟩ := h
  obtain ⟨h3, h4⟩ := h'
  refine ⟨by simp only [WTally.add]; omega, ?_⟩
  intro hp
  obtain ⟨h5, h6, h7⟩ := h4 hp
  obtain ⟨h8, h9, h10⟩ := h2 h5
  refine ⟨h8, by simp only [WTally.add]; omega, by simp only [WTally.add]; omega⟩

theorem Accounted.refl (s : WState) : Accounted s s .zero := ⟨Nat.le_refl _, fun h => ⟨h, rfl, rfl⟩⟩

theorem accounted_elements {s s' : WState} {t : WTally} {a b : Nat} (h : Accounted s s' t) : Accounted s s' (.add ⟨a, b, 0, 0, 0⟩ t) := by
  simp only [Accounted, WTally.add] at h ⊢
  simpa using h

theorem write_accounted (sink : Sink) (s : WState) (e : WEvent) (a : Option (EName × List (EName × String))) (t : Nat) :
    Accounted s (s.write sink e a).1 ⟨0, 0, startTags [e], t, 1⟩ := by
  rcases write_out sink s e a with ⟨h1, h2, h3, -⟩ | ⟨h1, h2, -⟩
  · refine ⟨by rw [h3]; simp, fun _ => ⟨h1, by rw [h3]; simp, by rw [h3, startTags_append]⟩⟩
  · exact ⟨by rw [h2]; simp, fun h => absurd h h1⟩

theorem poison_accounted (s : WState) (e : SErr) : Accounted s (s.poisonWith e) .zero :=
  ⟨Nat.le_refl _, fun h => absurd h (poisonWith_poison s e)⟩

theorem start_accounted (sink : Sink) (b : Builder) (s s' : WState) (t : WTally) (r : Except SErr Namespaces) (h : start sink b s = (t, .ok (s', r))) :
    Accounted s s' t ∧ (s'.poison = none ↔ ∃ n, r = .ok n) ∧ t.starts = 1 ∧ t.writes = 1 ∧ t.elements = 0 ∧ (∀ e, r = .error e → s'.out = s.out) := by
  simp only [start] at h
  revert h
  generalize finalize b.ns = q
  obtain ⟨k, _ | n⟩ := q
  · intro h; cases h
  · dsimp only
    cases n.resolveElement b.name with
    | error f => intro h; cases h
    | ok q =>
      dsimp only
      cases resolveAttrs n b.attrs with
      | error f => intro h; cases h
      | ok attrs =>
        dsimp only
        have hw := write_accounted sink s (.start q attrs n.byPrefix) (some (b.name, b.attrs)) k
        have ho := write_out sink s (.start q attrs n.byPrefix) (some (b.name, b.attrs))
        revert hw ho
        generalize s.write sink _ _ = w
        obtain ⟨s1, _ | _⟩ := w
        · intro hw ho h
          cases h
          refine ⟨hw, ?_, rfl, rfl, rfl, ?_⟩
          · rcases ho with ⟨-, -, -, h⟩ | ⟨h, -⟩
            · cases h
            · exact ⟨fun h' => absurd h' h, fun ⟨n, h⟩ => by cases h⟩
          · rintro _ -
            rcases ho with ⟨-, -, -, h⟩ | ⟨-, h, -⟩
            · cases h
            · exact h
        · intro hw ho h
          cases h
          refine ⟨hw, ?_, rfl, rfl, rfl, fun e h => by cases h⟩
          rcases ho with ⟨-, h, -⟩ | ⟨-, -, x, h⟩
          · exact ⟨fun _ => ⟨_, rfl⟩, fun _ => h⟩
          · cases h

theorem run_accounted (dbg : Bool) (sink : Sink) {hs : List Handle} (p : Prog hs) (st : HStates hs) (s s' : WState) (r : Except SErr Unit)
    (h : (run dbg sink p st s).2 = .ok (s', r)) : Accounted s s' (run dbg sink p st s).1 := by
  induction p generalizing s with
  | ret r => simp only [run] at h; cases h; exact .refl _
  | element name k ih =>
    cases st with | cons n rest =>
    exact accounted_elements (ih _ _ h)
  | text x k ih => exact (write_accounted sink s (.chars x) none 0).trans (ih _ _ _ h)
  | «namespace» p u k ih =>
    cases st with | cons b rest =>
    simp only [run] at h ⊢
    revert h
    generalize Builder.namespace dbg b p u = q
    obtain _ | b := q
    · intro h; cases h
    · intro h; exact ih _ _ h
  | «attribute» n v k ih =>
    cases st with | cons b rest =>
    simp only [run] at h ⊢
    revert h
    generalize Builder.attribute b n v = q
    obtain _ | ⟨b, r⟩ := q
    · intro h; cases h
    · intro h; exact ih _ _ _ h
  | start ok fail ih1 ih2 =>
    cases st with | cons b rest =>
    simp only [run] at h ⊢
    have hs := start_accounted sink b s
    revert hs h
    generalize start sink b s = q
    obtain ⟨t', _ | ⟨s1, _ | n⟩⟩ := q
    · intro h _; cases h
    · intro h hs
      exact (hs _ _ _ rfl).1.trans (ih2 _ _ _ h)
    · intro h hs
      exact (hs _ _ _ rfl).1.trans (ih1 _ _ h)
  | finish k ih =>
    cases st with | cons b rest =>
    exact (write_accounted sink s .stop none 0).trans (ih _ _ _ h)
  | dropBuilder k ih =>
    cases st with | cons b rest =>
    have := (poison_accounted s .builderDropped).trans (ih _ _ h)
    simp only [run]
    simpa [Accounted, WTally.add, WTally.zero] using this
  | dropWriter k ih =>
    cases st with | cons b rest =>
    have := (poison_accounted s .writerDropped).trans (ih _ _ h)
    simp only [run]
    simpa [Accounted, WTally.add, WTally.zero] using this
  | forgetBuilder k ih => cases st with | cons b rest => exact ih _ _ h
  | forgetWriter k ih => cases st with | cons b rest => exact ih _ _ h

theorem serializeTo_accounted (dbg : Bool) (sink : Sink) (name : EName) (attrs : AttrProg) (children : Prog [.writer false]) (s : WState) (r : Except SErr Unit) (t : WTally)
    (h : serializeTo dbg sink name attrs children = (t, .ok (s, r))) : Accounted { out := [], poison := none, steps := [] } s t ∧ (r = .ok () → s.poison = none) := by
  simp only [serializeTo] at h
  revert h
  generalize attrs.run dbg (Builder.new name []) = q
  obtain _ | ⟨b, _ | _⟩ := q
  · intro h; cases h
  · intro h
    cases h
    exact ⟨by simpa [Accounted, WTally.zero] using poison_accounted { out := [], poison := none, steps := [] } .builderDropped, fun h => by cases h⟩
  · dsimp only
    have hs := start_accounted sink b { out := [], poison := none, steps := [] }
    revert hs
    generalize start sink b _ = q
    obtain ⟨t1, _ | ⟨s1, _ | n⟩⟩ := q
    · intro _ h; cases h
    · intro hs h
      cases h
      exact ⟨accounted_elements (hs _ _ _ rfl).1, fun h => by cases h⟩
    · intro hs h
      have h0 := accounted_elements (a := 1) (b := 0) (hs _ _ _ rfl).1
      have hr := fun s' r => run_accounted dbg sink children (.cons (h := .writer false) n .nil) s1 s' r
      dsimp only at h
      revert h hr
      generalize run dbg sink children _ s1 = q
      obtain ⟨t2, _ | ⟨s2, _ | _⟩⟩ := q
      · intro h _; cases h
      · intro h hr
        cases h
        have := (h0.trans (hr _ _ rfl)).trans (poison_accounted s2 .writerDropped)
        exact ⟨by simpa [WTally.zero, WTally.add] using this, fun h => by cases h⟩
      · intro h hr
        have hw := write_accounted sink s2 .stop none 0
        have ho := write_out sink s2 .stop none
        have := (h0.trans (hr _ _ rfl)).trans hw
        have e1 : _ = t := congrArg Prod.fst h
        have e2 := Except.ok.inj (congrArg Prod.snd h)
        rw [e2] at this ho
        rw [← e1]
        refine ⟨this, ?_⟩
        rintro rfl
        rcases ho with ⟨-, h, -⟩ | ⟨-, -, x, h⟩
        · exact h
        · cases h

/-! ### Mappings in the output -/

theorem write_few {U : List String} {sink : Sink} {s : WState} {e : WEvent} {a : Option (EName × List (EName × String))} (hs : FewMappings U s.out) (he : FewMappings U [e]) :
    FewMappings U (s.write sink e a).1.out := by
  rcases write_out sink s e a with ⟨-, -, h, -⟩ | ⟨-, h, -⟩ <;> rw [h]
  · intro q as ns hm
    rcases List.mem_append.mp hm with hm | hm
    · exact hs q as ns hm
    · exact he q as ns hm
  · exact hs

theorem start_few {U : List String} {sink : Sink} {b : Builder} (hb : BOk U b) {s s' : WState} {r : Except SErr Namespaces} (h : b.start sink s = .ok (s', r))
    (hs : FewMappings U s.out) : FewMappings U s'.out ∧ ∀ n, r = .ok n → NOk U n := by
  obtain ⟨n, q, as, h1, h2, h3, rfl, h4⟩ := start_cases h
  have hn := nok_finalize hb h1
  refine ⟨write_few hs ?_, ?_⟩
  · intro q' as' ns' hm
    simp only [List.mem_singleton, WEvent.start.injEq] at hm
    obtain ⟨-, -, rfl⟩ := hm
    exact hn
  · rintro n' rfl
    rcases h4 with ⟨-, h4⟩ | ⟨e, -, h4⟩
    · cases h4; exact hn
    · cases h4

theorem run_few {U : List String} (dbg : Bool) (sink : Sink) {hs : List Handle} (p : Prog hs) (hp : Prog.Mappings (fun _ u => u ∈ U) p)
    (st : HStates hs) (hst : st.All (BOk U) (NOk U)) (s s' : WState) (r : Except SErr Unit) (h : p.run dbg sink st s = .ok (s', r)) (hi : FewMappings U s.out) :
    FewMappings U s'.out := by
  induction p generalizing s with
  | ret r => simp only [Prog.run] at h; cases h; exact hi
  | element name k ih =>
    cases st with | cons n rest =>
    exact ih hp _ (all_builder (bok_child hst.1 name) hst) s h hi
  | text t k ih => exact ih _ (hp _) _ hst _ h (write_few hi (by intro q as ns hm; simp at hm))
  | «namespace» p u k ih =>
    cases st with | cons b rest =>
    simp only [Prog.run] at h
    split at h
    · cases h
    · rename_i b' hb'
      exact ih hp.2 _ (all_builder (bok_namespace hst.1 hp.1 hb') hst.2) _ h hi
  | «attribute» n v k ih =>
    cases st with | cons b rest =>
    simp only [Prog.run] at h
    split at h
    · cases h
    · rename_i b' r hb'
      exact ih _ (hp _) _ (all_builder (bok_attribute hst.1 hb') hst.2) _ h hi
  | start ok fail ih1 ih2 =>
    cases st with | cons b rest =>
    simp only [Prog.run] at h
    split at h
    · cases h
    · rename_i s1 n hb
      obtain ⟨h1, h2⟩ := start_few hst.1 hb hi
      exact ih1 hp.1 _ (all_writer (h2 n rfl) hst.2) _ h h1
    · rename_i s1 e hb
      exact ih2 _ (hp.2 _) _ hst.2 _ h (start_few hst.1 hb hi).1
  | finish k ih =>
    cases st with | cons b rest =>
    exact ih _ (hp _) _ hst.2 _ h (write_few hi (by intro q as ns hm; simp at hm))
  | dropBuilder k ih => cases st with | cons b rest => exact ih hp _ hst.2 _ h hi
  | dropWriter k ih => cases st with | cons b rest => exact ih hp _ hst.2 _ h hi
  | forgetBuilder k ih => cases st with | cons b rest => exact ih hp _ hst.2 _ h hi
  | forgetWriter k ih => cases st with | cons b rest => exact ih hp _ hst.2 _ h hi

theorem serializeTo_few {U : List String} (dbg : Bool) (sink : Sink) (name : EName) (attrs : AttrProg) (children : Prog [.writer false])
    (ha : AttrProg.Mappings (fun _ u => u ∈ U) attrs) (hc : Prog.Mappings (fun _ u => u ∈ U) children) (s : WState) (r : Except SErr Unit)
    (h : SX.serializeTo dbg sink name attrs children = .ok (s, r)) : FewMappings U s.out := by
  have h0 : FewMappings U (WState.out { out := [], poison := none, steps := [] }) := by intro q as ns hm; cases hm
  simp only [SX.serializeTo] at h
  split at h
  · cases h
  · cases h; exact h0
  · rename_i b hb
    have hb' : BOk U b := attrs_bok attrs ha ⟨NsBuilder.Ok.nil, by simp [Builder.new, SMap.keys]⟩ hb
    split at h
    · cases h
    · rename_i hs
      cases h
      exact (start_few hb' hs h0).1
    · rename_i s1 n hs
      obtain ⟨h1, h2⟩ := start_few hb' hs h0
      split at h
      · cases h
      · rename_i s2 e hr
        cases h
        exact (run_few dbg sink children hc _ (all_writer (h2 n rfl) all_nil) _ s2 _ hr h1 : FewMappings U s2.out)
      · rename_i s2 hr
        have h3 := run_few dbg sink children hc _ (all_writer (h2 n rfl) all_nil) _ _ _ hr h1
        have h4 : FewMappings U (s2.write sink .stop none).1.out := write_few h3 (by intro q as ns hm; simp at hm)
        rw [Except.ok.inj h] at h4
        exact h4

/-! ### Programs that give up on every error -/

/-- How many builders there are. -/
def buildersIn : List Handle → Nat
  | [] => 0
  | .builder :: l => buildersIn l + 1
  | .writer _ :: l => buildersIn l

/-- No element can be begun where a builder is in use. -/
def mayBegin : List Handle → Nat
  | .builder :: _ => 0
  | _ => 1

theorem gives_zero (dbg : Bool) (sink : Sink) (e : SErr) {hs : List Handle} (p : Prog hs) (h : p.Gives e) (st : HStates hs) (s : WState) :
    ∃ s', run dbg sink p st s = (.zero, .ok (s', .error e)) ∧ s'.out = s.out := by
  induction p generalizing s with
  | ret r =>
    simp only [Prog.Gives] at h
    subst h
    exact ⟨s, rfl, rfl⟩
  | dropBuilder k ih =>
    cases st with | cons b rest =>
    obtain ⟨s', h1, h2⟩ := ih h rest (s.poisonWith .builderDropped)
    exact ⟨s', h1, h2⟩
  | dropWriter k ih =>
    cases st with | cons b rest =>
    obtain ⟨s', h1, h2⟩ := ih h rest (s.poisonWith .writerDropped)
    exact ⟨s', h1, h2⟩
  | _ => exact h.elim

/-- What a program that gives up on every error has done for what it has written. -/
def Thrifty (hs : List Handle) (s s' : WState) (r : Except SErr Unit) (t : WTally) : Prop :=
  t.writes ≤ (s'.out.length - s.out.length) + 1 ∧ s.out.length ≤ s'.out.length ∧ startTags s.out ≤ startTags s'.out ∧
    t.starts ≤ (startTags s'.out - startTags s.out) + 1 ∧ t.elements ≤ t.starts + mayBegin hs ∧
    (r = .ok () → t.elements + buildersIn hs = t.starts ∧ t.writes + s.out.length = s'.out.length)

theorem mayBegin_le (hs : List Handle) : mayBegin hs ≤ 1 := by
  cases hs with
  | nil => exact Nat.le_refl _
  | cons h hs => cases h <;> simp [mayBegin]

theorem run_thrifty (dbg : Bool) (sink : Sink) {hs : List Handle} (p : Prog hs) (hp : p.Strict) (st : HStates hs) (s s' : WState) (r : Except SErr Unit)
    (h : (run dbg sink p st s).2 = .ok (s', r)) : Thrifty hs s s' r (run dbg sink p st s).1 := by
  induction p generalizing s with
  | ret r =>
    simp only [run] at h
    cases h
    simp [run, Thrifty, WTally.zero, mayBegin, buildersIn]
  | element name k ih =>
    cases st with | cons n rest =>
    have := ih hp _ _ h
    simp only [run]
    simp only [Thrifty, mayBegin, buildersIn, WTally.add] at this ⊢
    obtain ⟨h1, h2, h3, h4, h5, h6⟩ := this
    refine ⟨by omega, h2, h3, by omega, by omega, fun hr => ?_⟩
    have := h6 hr
    omega
  | text x k ih =>
    simp only [run] at h ⊢
    rcases write_out sink s (.chars x) none with ⟨h1, h2, h3, h4⟩ | ⟨h1, h2, e, h4⟩
    · rw [h4] at h ⊢
      have := ih _ hp.1 _ _ h
      rw [Thrifty, h3, startTags_append] at this
      simp only [Thrifty, WTally.add, List.length_append, List.length_cons, List.length_nil, startTags] at this ⊢
      obtain ⟨h1, h2, h3, h4, h5, h6⟩ := this
      refine ⟨by omega, by omega, by omega, by omega, by omega, fun hr => ?_⟩
      have := h6 hr
      omega
    · rw [h4] at h ⊢
      obtain ⟨s2, g1, g2⟩ := gives_zero dbg sink e (k (.error e)) (hp.2 e) st (s.write sink (.chars x) none).1
      rw [g1] at h ⊢
      cases h
      simp only [Thrifty, g2, h2, WTally.add, WTally.zero]
      exact ⟨by omega, by omega, by omega, by omega, by omega, fun hr => by cases hr⟩
  | «namespace» p u k ih =>
    cases st with | cons b rest =>
    simp only [run] at h ⊢
    revert h
    generalize Builder.namespace dbg b p u = q
    obtain _ | b := q
    · intro h; cases h
    · intro h; exact ih hp _ _ h
  | «attribute» n v k ih =>
    cases st with | cons b rest =>
    simp only [run] at h ⊢
    revert h
    generalize Builder.attribute b n v = q
    obtain _ | ⟨b', r'⟩ := q
    · intro h; cases h
    · intro h
      cases r' with
      | ok _ => exact ih _ hp.1 _ _ h
      | error e =>
        dsimp only at h ⊢
        obtain ⟨k', g1, g2⟩ := hp.2 e
        obtain ⟨s2, g3, g4⟩ := gives_zero dbg sink e (k (.error e)) (by rw [g1]; exact g2) (.cons (h := .builder) b' rest) s
        rw [g3] at h ⊢
        cases h
        simp only [Thrifty, g4, WTally.zero]
        exact ⟨by omega, by omega, by omega, by omega, by omega, fun hr => by cases hr⟩
  | start ok fail ih1 ih2 =>
    cases st with | cons b rest =>
    simp only [run] at h ⊢
    have hs := start_accounted sink b s
    revert hs h
    generalize start sink b s = q
    obtain ⟨t', _ | ⟨s1, _ | n⟩⟩ := q
    · intro h _; cases h
    · intro h hs
      obtain ⟨-, -, g3, g4, g5, g6⟩ := hs _ _ _ rfl
      rename_i e
      obtain ⟨s2, k1, k2⟩ := gives_zero dbg sink e (fail e) (hp.2 e) rest s1
      dsimp only at h ⊢
      rw [k1] at h ⊢
      cases h
      simp only [Thrifty, k2, g6 _ rfl, WTally.add, WTally.zero, g3, g4, g5, mayBegin]
      exact ⟨by omega, by omega, by omega, by omega, by omega, fun hr => by cases hr⟩
    · intro h hs
      obtain ⟨⟨-, g1⟩, g2, g3, g4, g5, -⟩ := hs _ _ _ rfl
      obtain ⟨-, g6, g7⟩ := g1 (g2.mpr ⟨_, rfl⟩)
      have := ih1 hp.1 _ _ h
      simp only [Thrifty, g6, g7, g3, g4, g5, WTally.add, mayBegin, buildersIn] at this ⊢
      obtain ⟨h1, h2, h3, h4, h5, h6⟩ := this
      refine ⟨by omega, by omega, by omega, by omega, by omega, fun hr => ?_⟩
      have := h6 hr
      omega
  | finish k ih =>
    cases st with | cons b rest =>
    simp only [run] at h ⊢
    rename_i hs
    have hm := mayBegin_le hs
    rcases write_out sink s .stop none with ⟨h1, h2, h3, h4⟩ | ⟨h1, h2, e, h4⟩
    · rw [h4] at h ⊢
      have := ih _ hp.1 _ _ h
      rw [Thrifty, h3, startTags_append] at this
      simp only [Thrifty, WTally.add, List.length_append, List.length_cons, List.length_nil, startTags, buildersIn] at this ⊢
      have hm2 : ∀ l, mayBegin (.writer true :: l) = 1 := fun _ => rfl
      rw [hm2]
      obtain ⟨h1, h2, h3, h4, h5, h6⟩ := this
      refine ⟨by omega, by omega, by omega, by omega, by omega, fun hr => ?_⟩
      have := h6 hr
      omega
    · rw [h4] at h ⊢
      obtain ⟨s2, g1, g2⟩ := gives_zero dbg sink e (k (.error e)) (hp.2 e) rest (s.write sink .stop none).1
      rw [g1] at h ⊢
      cases h
      simp only [Thrifty, g2, h2, WTally.add, WTally.zero]
      exact ⟨by omega, by omega, by omega, by omega, by omega, fun hr => by cases hr⟩
  | dropBuilder k ih => exact hp.elim
  | dropWriter k ih => exact hp.elim
  | forgetBuilder k ih => exact hp.elim
  | forgetWriter k ih => exact hp.elim

theorem serializeTo_thrifty (dbg : Bool) (sink : Sink) (name : EName) (attrs : AttrProg) (children : Prog [.writer false]) (hc : children.Strict) (s : WState)
    (r : Except SErr Unit) (t : WTally) (h : serializeTo dbg sink name attrs children = (t, .ok (s, r))) :
    t.writes ≤ s.out.length + 1 ∧ t.starts ≤ startTags s.out + 1 ∧ t.elements ≤ t.starts + 1 ∧ (r = .ok () → t.elements = t.starts) := by
  simp only [serializeTo] at h
  revert h
  generalize attrs.run dbg (Builder.new name []) = q
  obtain _ | ⟨b, _ | _⟩ := q
  · intro h; cases h
  · intro h
    cases h
    exact ⟨Nat.zero_le _, Nat.zero_le _, Nat.le_refl _, fun h => by cases h⟩
  · dsimp only
    have hs := start_accounted sink b { out := [], poison := none, steps := [] }
    revert hs
    generalize start sink b _ = q
    obtain ⟨t1, _ | ⟨s1, _ | n⟩⟩ := q
    · intro _ h; cases h
    · intro hs h
      obtain ⟨-, -, g3, g4, g5, -⟩ := hs _ _ _ rfl
      cases h
      simp only [WTally.add, g3, g4, g5]
      exact ⟨by omega, by omega, by omega, fun h => by cases h⟩
    · intro hs h
      obtain ⟨⟨-, g1⟩, g2, g3, g4, g5, -⟩ := hs _ _ _ rfl
      obtain ⟨-, g6, g7⟩ := g1 (g2.mpr ⟨_, rfl⟩)
      have hr := fun s' r => run_thrifty dbg sink children hc (.cons (h := .writer false) n .nil) s1 s' r
      dsimp only at h
      revert h hr
      generalize run dbg sink children _ s1 = q
      obtain ⟨t2, _ | ⟨s2, _ | _⟩⟩ := q
      · intro h _; cases h
      · intro h hr
        cases h
        obtain ⟨h1, h2, h3, h4, h5, h6⟩ := hr _ _ rfl
        simp only [g6, g7, g4, g3, startTags, List.length_nil, mayBegin] at h1 h2 h3 h4 h5
        simp only [WTally.add, g3, g4, g5, WState.poisonWith]
        exact ⟨by omega, by omega, by omega, fun h => by cases h⟩
      · intro h hr
        obtain ⟨h1, h2, h3, h4, h5, h6⟩ := hr _ _ rfl
        have h6 := h6 rfl
        simp only [g6, g7, g4, g3, startTags, List.length_nil, mayBegin, buildersIn] at h1 h2 h3 h4 h5 h6
        have e1 : _ = t := congrArg Prod.fst h
        have e2 := Except.ok.inj (congrArg Prod.snd h)
        have ho := write_out sink s2 .stop none
        rw [e2] at ho
        rw [← e1]
        simp only [WTally.add, g3, g4, g5]
        rcases ho with ⟨-, -, ho, -⟩ | ⟨-, ho, x, hx⟩
        · have ho : s.out = s2.out ++ [.stop] := ho
          rw [ho, startTags_append]
          simp only [List.length_append, List.length_cons, List.length_nil, startTags]
          exact ⟨by omega, by omega, by omega, fun _ => by omega⟩
        · have ho : s.out = s2.out := ho
          have hx : r = .error x := hx
          rw [ho]
          exact ⟨by omega, by omega, by omega, fun h => by rw [hx] at h; cases h⟩

end SX.Cost
