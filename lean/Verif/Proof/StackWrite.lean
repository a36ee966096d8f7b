import Verif.Model.StackWrite
import Verif.Spec.StackWrite
import Verif.Proof.DeriveSerStops

namespace SX.Stack
open Spec

theorem live_ge (dbg : Bool) (sink : Sink) {hs : List Handle} (p : Prog hs) (st : HStates hs) (s : WState) : hs.length ≤ live dbg sink p st s := by
  cases p with
  | ret r => simp [live]
  | element name k => cases st with | cons n rest => simp only [live, here, List.length_cons]; omega
  | text t k => simp only [live, here, List.length_cons]; omega
  | «namespace» p u k => cases st with | cons b rest => simp only [live, here, List.length_cons]; split <;> omega
  | «attribute» n v k => cases st with | cons b rest => simp only [live, here, List.length_cons]; split <;> omega
  | start ok fail => cases st with | cons b rest => simp only [live, here, List.length_cons]; split <;> omega
  | finish k => cases st with | cons n rest => simp only [live, here, List.length_cons]; omega
  | dropBuilder k => cases st with | cons n rest => simp only [live, here, List.length_cons]; omega
  | dropWriter k => cases st with | cons n rest => simp only [live, here, List.length_cons]; omega
  | forgetBuilder k => cases st with | cons n rest => simp only [live, here, List.length_cons]; omega
  | forgetWriter k => cases st with | cons n rest => simp only [live, here, List.length_cons]; omega

theorem peak_ge (n : Nat) (l : List WEvent) : n ≤ peak n l := by
  induction l generalizing n with
  | nil => exact Nat.le_refl _
  | cons e l ih =>
    cases e with
    | start => simp only [peak]; omega
    | stop => simp only [peak]; omega
    | chars => exact ih n

/-- The writers among the handles. -/
def writers : List Handle → Nat
  | [] => 0
  | .builder :: hs => writers hs
  | .writer _ :: hs => writers hs + 1

/-- Only the newest can be a builder. -/
def Tidy : List Handle → Prop
  | [] => True
  | _ :: hs => writers hs = hs.length

theorem writers_le (hs : List Handle) : writers hs ≤ hs.length := by
  induction hs with
  | nil => exact Nat.le_refl _
  | cons h hs ih => cases h <;> simp only [writers, List.length_cons] <;> omega

theorem tidy_writers {h : Handle} {hs : List Handle} (ht : writers (h :: hs) = (h :: hs).length) : writers hs = hs.length := by
  have := writers_le hs
  cases h <;> simp only [writers, List.length_cons] at ht <;> omega

theorem tidy_of {hs : List Handle} (h : writers hs = hs.length) : Tidy hs := by
  cases hs with
  | nil => trivial
  | cons a hs => exact tidy_writers h

theorem write_none {s : WState} {sink : Sink} {e : WEvent} {a : Option (EName × List (EName × String))} (h : (s.write sink e a).1.poison = none) :
    (s.write sink e a).1.out = s.out ++ [e] ∧ (s.write sink e a).2 = .ok () := by
  unfold WState.write at h ⊢
  cases hp : s.poison with
  | some p => simp [hp] at h
  | none =>
    simp only [hp] at h ⊢
    cases hs : sink s.out e with
    | some m => simp [hs] at h
    | none => simp

/-- As many elements are open as there are writers, while all goes well. -/
theorem run_peak (dbg : Bool) (sink : Sink) {hs : List Handle} (p : Prog hs) (hf : NoForget p) (ht : Tidy hs) (st : HStates hs)
    (s s' : WState) (r : Except SErr Unit) (h : p.run dbg sink st s = .ok (s', r)) (hc : s'.poison = none) :
    ∃ es, s'.out = s.out ++ es ∧ peak (writers hs) es ≤ live dbg sink p st s ∧ live dbg sink p st s ≤ peak (writers hs) es + 1 := by
  induction p generalizing s with
  | ret r' =>
    simp only [Prog.run, Except.ok.injEq, Prod.mk.injEq] at h
    obtain ⟨rfl, rfl⟩ := h
    exact ⟨[], by simp, by simp [peak, live, writers], by simp [peak, live, writers]⟩
  | element name k ih =>
    cases st with | cons n rest =>
    obtain ⟨es, h1, h2, h3⟩ := ih hf (by simp only [Tidy] at ht ⊢; simp only [writers, List.length_cons]; omega) _ _ h
    refine ⟨es, h1, ?_, ?_⟩
    all_goals
      have := live_ge dbg sink k (.cons (h := .builder) (Builder.new name (Namespaces.child n name.ns)) (.cons (h := .writer _) n rest)) s
      simp only [live, here, writers, List.length_cons] at *
      omega
  | text t k ih =>
    simp only [Prog.run] at h
    have hw := write_none (run_poisoned h hc)
    obtain ⟨es, h1, h2, h3⟩ := ih _ (hf _) ht _ _ h
    have := live_ge dbg sink (k (s.write sink (.chars t) none).2) st (s.write sink (.chars t) none).1
    refine ⟨.chars t :: es, by rw [h1, hw.1]; simp, ?_, ?_⟩
    all_goals
      simp only [live, here, peak, List.length_cons] at *
      omega
  | «namespace» p u k ih =>
    cases st with | cons b rest =>
    simp only [Prog.run] at h
    cases hb : Builder.namespace dbg b p u with
    | error f => rw [hb] at h; cases h
    | ok b' =>
      rw [hb] at h
      obtain ⟨es, h1, h2, h3⟩ := ih hf ht _ _ h
      have := live_ge dbg sink k (.cons (h := .builder) b' rest) s
      refine ⟨es, h1, ?_, ?_⟩
      all_goals
        simp only [live, here, hb, List.length_cons] at *
        omega
  | «attribute» n v k ih =>
    cases st with | cons b rest =>
    simp only [Prog.run] at h
    cases hb : Builder.attribute b n v with
    | error f => rw [hb] at h; cases h
    | ok b' =>
      obtain ⟨b', r'⟩ := b'
      rw [hb] at h
      obtain ⟨es, h1, h2, h3⟩ := ih _ (hf _) ht _ _ h
      have := live_ge dbg sink (k r') (.cons (h := .builder) b' rest) s
      refine ⟨es, h1, ?_, ?_⟩
      all_goals
        simp only [live, here, hb, List.length_cons] at *
        omega
  | start ok fail ih1 ih2 =>
    cases st with | cons b rest =>
    simp only [Prog.run] at h
    cases hb : Builder.start sink b s with
    | error f => rw [hb] at h; cases h
    | ok x =>
      obtain ⟨s1, r1⟩ := x
      rw [hb] at h
      obtain ⟨n, q, attrs, -, -, -, rfl, h4⟩ := start_cases hb
      cases r1 with
      | error e =>
        dsimp only at h
        have hw := write_none (run_poisoned h hc)
        rcases h4 with ⟨-, h4⟩ | ⟨e', h4, -⟩
        · cases h4
        · rw [hw.2] at h4; cases h4
      | ok m =>
        dsimp only at h
        have hw := write_none (run_poisoned h hc)
        obtain ⟨es, h1, h2, h3⟩ := ih1 hf.1 ht _ _ h
        have := live_ge dbg sink ok (.cons (h := .writer true) m rest) (s.write sink (.start q attrs n.byPrefix) (some (b.name, b.attrs))).1
        refine ⟨.start q attrs n.byPrefix :: es, by rw [h1, hw.1]; simp, ?_, ?_⟩
        all_goals
          simp only [live, here, hb, peak, writers, List.length_cons, Tidy] at *
          omega
  | finish k ih =>
    cases st with | cons n rest =>
    simp only [Prog.run] at h
    have hw := write_none (run_poisoned h hc)
    simp only [Tidy] at ht
    obtain ⟨es, h1, h2, h3⟩ := ih _ (hf _) (tidy_of ht) _ _ h
    refine ⟨.stop :: es, by rw [h1, hw.1]; simp, ?_, ?_⟩
    all_goals
      simp only [live, here, peak, writers, List.length_cons, Nat.add_sub_cancel] at *
      omega
  | dropBuilder k ih =>
    cases st with | cons n rest =>
    simp only [Prog.run] at h
    exact absurd (run_poisoned h hc) (poisonWith_poison s _)
  | dropWriter k ih =>
    cases st with | cons n rest =>
    simp only [Prog.run] at h
    exact absurd (run_poisoned h hc) (poisonWith_poison s _)
  | @forgetBuilder hs' k ih =>
    cases st with | cons n rest =>
    simp only [Tidy] at ht
    obtain ⟨es, h1, h2, h3⟩ := ih hf (tidy_of ht) _ _ h
    have hp := peak_ge (writers hs') es
    refine ⟨es, h1, ?_, ?_⟩
    all_goals
      simp only [live, here, writers, List.length_cons] at *
      omega
  | forgetWriter k ih => exact absurd hf id

/-! ### Derived serializers -/

/-- However it goes, no builder is made when there are `m` builders and writers. -/
def Shallow (m : Nat) : {hs : List Handle} → Prog hs → Prop
  | _, .ret _ => True
  | _, .element (hs := hs) _ k => hs.length + 2 ≤ m ∧ Shallow m k
  | _, .text _ k => ∀ r, Shallow m (k r)
  | _, .namespace _ _ k => Shallow m k
  | _, .attribute _ _ k => ∀ r, Shallow m (k r)
  | _, .start ok fail => Shallow m ok ∧ ∀ e, Shallow m (fail e)
  | _, .finish k => ∀ r, Shallow m (k r)
  | _, .dropBuilder k => Shallow m k
  | _, .dropWriter k => Shallow m k
  | _, .forgetBuilder k => Shallow m k
  | _, .forgetWriter k => Shallow m k

theorem live_le (dbg : Bool) (sink : Sink) (m : Nat) {hs : List Handle} (p : Prog hs) (h : Shallow m p) (hm : hs.length ≤ m) (st : HStates hs) (s : WState) :
    live dbg sink p st s ≤ m := by
  induction p generalizing s with
  | ret r => simpa [live] using hm
  | element name k ih =>
    cases st with | cons n rest =>
    have := ih h.2 (by have := h.1; simp only [List.length_cons]; omega) (.cons (h := .builder) (Builder.new name (Namespaces.child n name.ns)) (.cons (h := .writer _) n rest)) s
    simp only [live, here, List.length_cons] at *
    omega
  | text t k ih =>
    have := ih _ (h (s.write sink (.chars t) none).2) hm st (s.write sink (.chars t) none).1
    simp only [live, here, List.length_cons] at *
    omega
  | «namespace» p u k ih =>
    cases st with | cons b rest =>
    simp only [live, here, List.length_cons] at *
    split
    · exact hm
    · rename_i b' _
      have := ih h hm (.cons (h := .builder) b' rest) s
      omega
  | «attribute» n v k ih =>
    cases st with | cons b rest =>
    simp only [live, here, List.length_cons] at *
    split
    · exact hm
    · rename_i b' r' _
      have := ih r' (h r') hm (.cons (h := .builder) b' rest) s
      omega
  | start ok fail ih1 ih2 =>
    cases st with | cons b rest =>
    simp only [live, here, List.length_cons] at *
    split
    · exact hm
    · rename_i s' n _
      have := ih1 h.1 hm (.cons (h := .writer true) n rest) s'
      omega
    · rename_i s' e _
      have := ih2 e (h.2 e) (by omega) rest s'
      omega
  | finish k ih =>
    cases st with | cons n rest =>
    simp only [live, here, List.length_cons] at *
    have := ih _ (h (s.write sink .stop none).2) (by omega) rest (s.write sink .stop none).1
    omega
  | dropBuilder k ih =>
    cases st with | cons n rest =>
    simp only [live, here, List.length_cons] at *
    have := ih h (by omega) rest (s.poisonWith .builderDropped)
    omega
  | dropWriter k ih =>
    cases st with | cons n rest =>
    simp only [live, here, List.length_cons] at *
    have := ih h (by omega) rest (s.poisonWith .writerDropped)
    omega
  | forgetBuilder k ih =>
    cases st with | cons n rest =>
    simp only [live, here, List.length_cons] at *
    have := ih h (by omega) rest s
    omega
  | forgetWriter k ih =>
    cases st with | cons n rest =>
    simp only [live, here, List.length_cons] at *
    have := ih h (by omega) rest s
    omega

theorem shallow_embed {m : Nat} {hs : List Handle} (a : AttrProg) (k : Except SErr Unit → Prog (.builder :: hs)) (hk : ∀ r, Shallow m (k r)) :
    Shallow m (a.embed k) := by
  induction a with
  | ret r => exact hk r
  | «namespace» p u k ih => exact ih
  | «attribute» n v k ih => exact fun r => ih r

theorem shallow_items (env : Env) (m : Nat) {l : List Item} {f : EForest}
    (h : Shows env l f) : ∀ {o : Bool} {hs : List Handle} (k : WCont o hs), hs.length + 1 + f.depth ≤ m → (∀ r, Shallow m (k r)) →
      Shallow m (runItems env l k) := by
  have next : ∀ {o : Bool} {hs : List Handle} (k : WCont o hs) (p : Prog (.writer o :: hs)), (∀ r, Shallow m (k r)) →
      Shallow m p → ∀ r, Shallow m (k.next p r) := by
    intro o hs k p hk hp r
    cases r with
    | error e => exact hk _
    | ok u => exact hp
  have elem : ∀ {o : Bool} {hs : List Handle} (name : EName) (ty : Ty) (v : Val) (k : WCont o hs), hs.length + 2 ≤ m → (∀ r, Shallow m (k r)) →
      (∀ k : WCont true (.writer o :: hs), (∀ r, Shallow m (k r)) → Shallow m (writeChildren env ty v k)) →
      Shallow m (writeElem name (writeAttributes env ty v) (fun k => writeChildren env ty v k) k) := by
    intro o hs name ty v k hm hk hc
    refine ⟨hm, shallow_embed _ _ ?_⟩
    intro r
    cases r with
    | error e => exact hk _
    | ok u =>
      refine ⟨hc _ ?_, fun e => hk _⟩
      intro r
      cases r with
      | error e => exact hk _
      | ok u => exact hk
  induction h with
  | nil => intro o hs k hm hk; exact hk _
  | unit rest ih =>
    intro o hs k hm hk
    simp only [EForest.depth] at hm
    have := next k _ hk (ih k (by omega) hk)
    exact ⟨by omega, this, fun e => this _⟩
  | @text n t tv s l f h rest ih =>
    intro o hs k hm hk
    simp only [EForest.depth] at hm
    refine elem n _ _ _ (by omega) (next k _ hk (ih k (by omega) hk)) ?_
    intro k hk
    rw [writeChildren.eq_def]
    simp only [h]
    exact hk
  | strct children rest ihc ih =>
    intro o hs k hm hk
    simp only [EForest.depth] at hm
    refine elem _ _ _ _ (by omega) (next k _ hk (ih k (by omega) hk)) ?_
    intro k hk
    rw [writeStruct_items]
    exact ihc k (by simp only [List.length_cons]; omega) hk
  | enm children rest ihc ih =>
    intro o hs k hm hk
    simp only [EForest.depth] at hm
    refine elem _ _ _ _ (by omega) (next k _ hk (ih k (by omega) hk)) ?_
    intro k hk
    rw [writeVariant_items]
    exact ihc k (by simp only [List.length_cons]; omega) hk

theorem shallow_children (env : Env) {name : EName} {ty : Ty} {v : Val}
    {as : List (EName × String)} {g : EForest} (h : Represents env name ty v as g) : Shallow (g.depth + 1) (writeChildren env ty v .ret) := by
  cases h with
  | text h r => rw [writeChildren.eq_def]; simp only [h]; exact fun _ => trivial
  | strct h r => rw [writeStruct_items]; exact shallow_items env _ h _ (by simp only [List.length_nil]; omega) fun _ => trivial
  | enm h r => rw [writeVariant_items]; exact shallow_items env _ h _ (by simp only [List.length_nil]; omega) fun _ => trivial

/-! ### How deep documents are -/

/-- `peak` for what is asked for. -/
def peakE : Nat → List EEvent → Nat
  | n, [] => n
  | n, .start _ _ :: l => max n (peakE (n + 1) l)
  | n, .stop :: l => max n (peakE (n - 1) l)
  | n, .chars _ :: l => peakE n l

theorem peakE_ge (n : Nat) (l : List EEvent) : n ≤ peakE n l := by
  induction l generalizing n with
  | nil => exact Nat.le_refl _
  | cons e l ih =>
    cases e with
    | start => simp only [peakE]; omega
    | stop => simp only [peakE]; omega
    | chars => exact ih n

theorem peakE_forest (g : EForest) (n : Nat) (l : List EEvent) : peakE n (g.events ++ l) = max (n + g.depth) (peakE n l) := by
  induction g generalizing n l with
  | nil => have := peakE_ge n l; simp only [EForest.events, EForest.depth, List.nil_append]; omega
  | chars s rest ih => simp only [EForest.events, EForest.depth, List.cons_append, peakE, ih]
  | elem nm as c rest ih1 ih2 =>
    simp only [EForest.events, EForest.depth, List.cons_append, List.append_assoc, peakE, ih1, ih2, Nat.add_sub_cancel]
    have := peakE_ge n l
    omega

theorem peak_steps (steps : List Step) (es : List EEvent) (h : steps.map stepAsked = es.map some) (n : Nat) :
    peak n (steps.filterMap stepEvent) = peakE n es := by
  induction steps generalizing es n with
  | nil => cases es with
    | nil => rfl
    | cons e es => simp at h
  | cons x steps ih =>
    cases es with
    | nil => simp at h
    | cons e es =>
      simp only [List.map_cons, List.cons.injEq] at h
      obtain ⟨h1, h2⟩ := h
      unfold stepAsked at h1
      split at h1 <;> cases h1 <;> simp only [List.filterMap_cons, stepEvent, peak, peakE, ih es h2]

theorem liveTo_le (dbg : Bool) (sink : Sink) (name : EName) (attrs : AttrProg) (children : Prog [.writer false]) (m : Nat) (hm : 1 ≤ m) (h : Shallow m children) :
    liveTo dbg sink name attrs children ≤ m := by
  unfold liveTo
  split
  · exact hm
  · exact hm
  · split
    · exact hm
    · exact hm
    · rename_i s n _
      have := live_le dbg sink m children h hm (.cons (h := .writer false) n .nil) s
      omega

theorem liveTo_peak (dbg : Bool) (sink : Sink) (name : EName) (attrs : AttrProg) (children : Prog [.writer false]) (hf : NoForget children) (s : WState)
    (h : serializeTo dbg sink name attrs children = .ok (s, .ok ())) :
    peak 0 s.out ≤ liveTo dbg sink name attrs children ∧ liveTo dbg sink name attrs children ≤ peak 0 s.out + 1 := by
  unfold serializeTo at h
  dsimp only at h
  unfold liveTo
  split at h
  · cases h
  · cases h
  · rename_i b ha
    rw [ha]
    dsimp only
    split at h
    · cases h
    · cases h
    · rename_i s1 n hb
      rw [hb]
      dsimp only
      split at h
      · cases h
      · cases h
      · rename_i s2 hr
        simp only [Except.ok.injEq] at h
        have hw := write_wrote (s := s2) (sink := sink) (e := .stop) (a := none) (by rw [h])
        have ho := write_none (s := s2) (sink := sink) (e := .stop) (a := none) hw.2.1
        rw [h] at ho
        obtain ⟨es, h1, h2, h3⟩ := run_peak dbg sink children hf rfl _ s1 s2 _ hr hw.1
        obtain ⟨n', q, as, -, -, -, rfl, h4⟩ := start_cases hb
        have hw1 := write_none (run_poisoned hr hw.1)
        rw [ho.1, h1, hw1.1]
        have key : ∀ (l : List WEvent) (k : Nat), peak k (l ++ [.stop]) = peak k l := by
          intro l
          induction l with
          | nil => intro k; simp only [List.nil_append, peak]; omega
          | cons e l ih =>
            intro k
            cases e <;> simp only [List.cons_append, peak, ih]
        have hp := peak_ge 1 es
        simp only [List.nil_append, List.cons_append, peak, key, Nat.zero_add, writers] at *
        omega

/-! ### How deep types nest -/

theorem holds_field {env : Env} {i : Nat} {f : Field} {s : Slot} {v : Val} (hf : f ∈ (env.strct i).fields) (hk : f.kind = .element s) {x : Item}
    (hx : x ∈ fieldItems s f.name.expanded v) {y : Ty × Val} (hy : x.value = some y) : Holds env (.strct i) y.1 := by
  simp only [fieldItems, List.mem_map] at hx
  obtain ⟨w, -, rfl⟩ := hx
  cases hy
  exact .field hf hk

theorem holds_variant {env : Env} {i : Nat} {v : Val} {x : Item} (hx : x ∈ variantItems (env.enm i) v) {y : Ty × Val} (hy : x.value = some y) :
    Holds env (.enm i) y.1 := by
  unfold variantItems at hx
  split at hx
  · split at hx
    · cases hx
    · rename_i w hw
      split at hx
      · cases hx
      · rename_i hn
        split at hx
        · simp only [List.mem_singleton] at hx
          subst hx
          cases hy
        · rename_i s p hs
          simp only [fieldItems, List.mem_map] at hx
          obtain ⟨u, -, rfl⟩ := hx
          cases hy
          exact .variant (List.mem_of_getElem? hw) (by simpa using hn) hs
        · cases hx
  · cases hx

theorem holds_struct {env : Env} {i : Nat} {vs : List Val} {x : Item} (hx : x ∈ structItems env (env.strct i).fields vs) {y : Ty × Val}
    (hy : x.value = some y) : Holds env (.strct i) y.1 := by
  simp only [structItems, List.mem_append, List.mem_flatMap] at hx
  rcases hx with ⟨z, hz, hx⟩ | ⟨z, hz, hx⟩
  · split at hx
    · rename_i s hk
      exact holds_field (List.of_mem_zip hz).1 hk hx hy
    · cases hx
  · split at hx
    · rename_i e hk
      exact .flatten (List.of_mem_zip hz).1 hk (holds_variant hx hy)
    · cases hx

theorem depth_ranked (env : Env) (rank : Ty → Nat) (h0 : ∀ i, 0 < rank (.strct i) ∧ 0 < rank (.enm i))
    (hr : ∀ ty ty', Holds env ty ty' → rank ty' < rank ty) {l : List Item} {f : EForest} (h : Shows env l f) (m : Nat)
    (hl : ∀ x ∈ l, ∀ y, x.value = some y → rank y.1 + 1 ≤ m) (hm : 1 ≤ m) : f.depth ≤ m := by
  induction h generalizing m with
  | nil => simp [EForest.depth]
  | unit rest ih =>
    have := ih m (fun x hx => hl x (by simp [hx])) hm
    simp only [EForest.depth]
    omega
  | text ht rest ih =>
    have := ih m (fun x hx => hl x (by simp [hx])) hm
    simp only [EForest.depth]
    omega
  | @strct n i vs g l f children rest ihc ih =>
    have h1 := ih m (fun x hx => hl x (by simp [hx])) hm
    have h2 := hl _ (List.mem_cons_self ..) _ rfl
    have h3 := ihc (rank (.strct i)) (fun x hx y hy => hr _ _ (holds_struct hx hy)) (h0 i).1
    simp only [EForest.depth] at *
    omega
  | @enm n i j p g l f children rest ihc ih =>
    have h1 := ih m (fun x hx => hl x (by simp [hx])) hm
    have h2 := hl _ (List.mem_cons_self ..) _ rfl
    have h3 := ihc (rank (.enm i)) (fun x hx y hy => hr _ _ (holds_variant hx hy)) (h0 i).2
    simp only [EForest.depth] at *
    omega

/-! ### Types that contain themselves -/

theorem item_shown {env : Env} {l : List Item} {f : EForest} (h : Shows env l f) {n : EName} {ty : Ty} {w : Val}
    (hx : ({ name := n, value := some (ty, w) } : Item) ∈ l) : ∃ as g, Represents env n ty w as g ∧ g.depth + 1 ≤ f.depth := by
  induction h with
  | nil => cases hx
  | unit rest ih =>
    simp only [List.mem_cons, Item.mk.injEq, reduceCtorEq, and_false, false_or] at hx
    obtain ⟨as, g, h1, h2⟩ := ih hx
    exact ⟨as, g, h1, by simp only [EForest.depth]; omega⟩
  | text ht rest ih =>
    rcases List.mem_cons.mp hx with hx | hx
    · cases hx
      exact ⟨_, _, .text ht .nil, by simp only [EForest.depth]; omega⟩
    · obtain ⟨as, g, h1, h2⟩ := ih hx
      exact ⟨as, g, h1, by simp only [EForest.depth]; omega⟩
  | strct children rest ihc ih =>
    rcases List.mem_cons.mp hx with hx | hx
    · cases hx
      exact ⟨_, _, .strct children .nil, by simp only [EForest.depth]; omega⟩
    · obtain ⟨as, g, h1, h2⟩ := ih hx
      exact ⟨as, g, h1, by simp only [EForest.depth]; omega⟩
  | enm children rest ihc ih =>
    rcases List.mem_cons.mp hx with hx | hx
    · cases hx
      exact ⟨_, _, .enm children .nil, by simp only [EForest.depth]; omega⟩
    · obtain ⟨as, g, h1, h2⟩ := ih hx
      exact ⟨as, g, h1, by simp only [EForest.depth]; omega⟩

/-- A value with just this one in it. -/
def wrap : Card → Val → Val
  | .one, w => w
  | .opt, w => .opt (some w)
  | .many, w => .vec [w]

theorem wrap_ok (c : Card) (w : Val) : CardOk c (wrap c w) ∧ valuesOf c (wrap c w) = [w] := by
  cases c
  · exact ⟨trivial, rfl⟩
  · exact ⟨⟨_, rfl⟩, rfl⟩
  · exact ⟨⟨_, rfl⟩, rfl⟩

/-- A struct with one field changed. -/
theorem hasTy_set {env : Env} {i p : Nat} {f : Field} {vs : List Val} {u : Val} (hv : HasTy env (.strct i) (.strct vs)) (hf : (env.strct i).fields[p]? = some f)
    (h1 : Shape f.kind u) (h2 : ∀ s w, f.kind = .element s → w ∈ valuesOf s.card u → HasTy env s.ty w) (h3 : ∀ e, f.kind = .flatten e → HasTy env (.enm e) u) :
    HasTy env (.strct i) (.strct (vs.set p u)) ∧ (f, u) ∈ (env.strct i).fields.zip (vs.set p u) := by
  cases hv with
  | strct len shape elems flats =>
    have hp : p < vs.length := by
      have := (List.getElem?_eq_some_iff.mp hf).1
      omega
    have key : ∀ q g v, (env.strct i).fields[q]? = some g → (vs.set p u)[q]? = some v → (q = p ∧ g = f ∧ v = u) ∨ vs[q]? = some v := by
      intro q g v hg hq
      by_cases hqp : q = p
      · subst hqp
        rw [hf] at hg
        cases hg
        rw [List.getElem?_set_self hp] at hq
        cases hq
        exact .inl ⟨rfl, rfl, rfl⟩
      · rw [List.getElem?_set_ne (Ne.symm hqp)] at hq
        exact .inr hq
    refine ⟨.strct (by simpa using len) ?_ ?_ ?_, ?_⟩
    · intro q g v hg hq
      rcases key q g v hg hq with ⟨rfl, rfl, rfl⟩ | hq
      · exact h1
      · exact shape q g v hg hq
    · intro q g s v w hg hq hk hw
      rcases key q g v hg hq with ⟨rfl, rfl, rfl⟩ | hq
      · exact h2 s w hk hw
      · exact elems q g s v w hg hq hk hw
    · intro q g e v hg hq hk
      rcases key q g v hg hq with ⟨rfl, rfl, rfl⟩ | hq
      · exact h3 e hk
      · exact flats q g e v hg hq hk
    · apply List.mem_of_getElem? (i := p)
      rw [List.getElem?_zip_eq_some]
      exact ⟨hf, List.getElem?_set_self hp⟩

theorem plug {env : Env} (hin : ∀ i, ∃ v, HasTy env (.strct i) v) {ty ty' : Ty} (h : Holds env ty ty')
    (w : Val) (hw : HasTy env ty' w) :
    ∃ v n, HasTy env ty v ∧ match ty, v with
      | .strct i, .strct vs => ({ name := n, value := some (ty', w) } : Item) ∈ structItems env (env.strct i).fields vs
      | .enm i, v => ({ name := n, value := some (ty', w) } : Item) ∈ variantItems (env.enm i) v
      | _, _ => False := by
  induction h with
  | @field i f s hf hk =>
    obtain ⟨v, hv⟩ := hin i
    cases hv with
    | @strct _ vs len shape elems flats =>
      obtain ⟨p, hp⟩ := List.getElem?_of_mem hf
      obtain ⟨h1, h2⟩ := hasTy_set (u := wrap s.card w) (.strct len shape elems flats) hp (by rw [hk]; exact (wrap_ok ..).1)
        (by intro s' w' hk' hw'; rw [hk] at hk'; cases hk'; rw [(wrap_ok ..).2] at hw'; simp only [List.mem_singleton] at hw'; subst hw'; exact hw)
        (by intro e he; rw [hk] at he; cases he)
      refine ⟨_, f.name.expanded, h1, ?_⟩
      simp only [structItems, List.mem_append, List.mem_flatMap]
      refine .inl ⟨_, h2, ?_⟩
      simp only [hk, fieldItems, (wrap_ok ..).2]
      simp
  | @variant i x s hx hn hs =>
    obtain ⟨j, hj⟩ := List.getElem?_of_mem hx
    refine ⟨.enm j (some (wrap s.card w)), x.name.expanded, .payload hj hs (wrap_ok ..).1 (by rw [(wrap_ok ..).2]; simpa using hw), ?_⟩
    simp [variantItems, hj, hn, hs, fieldItems, (wrap_ok ..).2]
  | @flatten i e f ty' hf hk h ih =>
    obtain ⟨u, n, hu, hm⟩ := ih hw
    obtain ⟨v, hv⟩ := hin i
    cases hv with
    | @strct _ vs len shape elems flats =>
      obtain ⟨p, hp⟩ := List.getElem?_of_mem hf
      obtain ⟨h1, h2⟩ := hasTy_set (u := u) (.strct len shape elems flats) hp (by rw [hk]; trivial)
        (by intro s' w' hk'; rw [hk] at hk'; cases hk') (by intro e' he; rw [hk] at he; cases he; exact hu)
      refine ⟨_, n, h1, ?_⟩
      simp only [structItems, List.mem_append, List.mem_flatMap]
      refine .inr ⟨_, h2, ?_⟩
      simp only [hk]
      exact hm

/-- Its documents are at least so deep. -/
def AtLeast (env : Env) (ty : Ty) (v : Val) (n : Nat) : Prop := ∀ name as g, Represents env name ty v as g → n ≤ g.depth

theorem plug_depth {env : Env} (hin : ∀ i, ∃ v, HasTy env (.strct i) v) {ty ty' : Ty} (h : Holds env ty ty')
    (w : Val) (hw : HasTy env ty' w) (n : Nat) (hn : AtLeast env ty' w n) : ∃ v, HasTy env ty v ∧ AtLeast env ty v (n + 1) := by
  obtain ⟨v, nm, hv, hm⟩ := plug hin h w hw
  refine ⟨v, hv, ?_⟩
  intro name as g hr
  unfold Represents at hr
  cases hr with
  | text ht r => exact absurd hm id
  | strct hc r =>
    obtain ⟨as', g', h1, h2⟩ := item_shown hc hm
    have := hn _ _ _ h1
    omega
  | enm hc r =>
    obtain ⟨as', g', h1, h2⟩ := item_shown hc hm
    have := hn _ _ _ h1
    omega

theorem deep_depth {env : Env} (hin : ∀ i, ∃ v, HasTy env (.strct i) v) {ty ty' : Ty} (h : HoldsDeep env ty ty')
    (w : Val) (hw : HasTy env ty' w) (n : Nat) (hn : AtLeast env ty' w n) : ∃ v, HasTy env ty v ∧ AtLeast env ty v (n + 1) := by
  induction h with
  | child h => exact plug_depth hin h w hw n hn
  | inside h _ ih =>
    obtain ⟨u, h1, h2⟩ := ih hw hn
    obtain ⟨v, h3, h4⟩ := plug_depth hin h u h1 (n + 1) h2
    exact ⟨v, h3, fun name as g hr => by have := h4 name as g hr; omega⟩

/-- A call is a part of the run. -/
theorem next_run {dbg : Bool} {sink : Sink} {a b : Conf} (h : Next dbg sink a b) : a.prog.run dbg sink a.handles a.state = b.prog.run dbg sink b.handles b.state := by
  cases h with
  | element => simp only [Prog.run]
  | text => simp only [Prog.run]
  | «namespace» h => simp only [Prog.run, h]
  | «attribute» h => simp only [Prog.run, h]
  | started h => simp only [Prog.run, h]
  | notStarted h => simp only [Prog.run, h]
  | finish => simp only [Prog.run]
  | dropBuilder => simp only [Prog.run]
  | dropWriter => simp only [Prog.run]
  | forgetBuilder => simp only [Prog.run]
  | forgetWriter => simp only [Prog.run]

theorem comes_run {dbg : Bool} {sink : Sink} {a b : Conf} (h : Comes dbg sink a b) : a.prog.run dbg sink a.handles a.state = b.prog.run dbg sink b.handles b.state := by
  induction h with
  | refl => rfl
  | next h _ ih => exact (next_run h).trans ih

theorem next_live {dbg : Bool} {sink : Sink} {a b : Conf} (h : Next dbg sink a b) :
    live dbg sink a.prog a.handles a.state = max a.hs.length (live dbg sink b.prog b.handles b.state) := by
  cases h with
  | element => simp only [live, here, List.length_cons]
  | text => simp only [live, here, List.length_cons]
  | «namespace» h => simp only [live, here, List.length_cons, h]
  | «attribute» h => simp only [live, here, List.length_cons, h]
  | started h => simp only [live, here, List.length_cons, h]
  | notStarted h => simp only [live, here, List.length_cons, h]
  | finish => simp only [live, here, List.length_cons]
  | dropBuilder => simp only [live, here, List.length_cons]
  | dropWriter => simp only [live, here, List.length_cons]
  | forgetBuilder => simp only [live, here, List.length_cons]
  | forgetWriter => simp only [live, here, List.length_cons]

theorem live_comes {dbg : Bool} {sink : Sink} {a b : Conf} (h : Comes dbg sink a b) : b.hs.length ≤ live dbg sink a.prog a.handles a.state := by
  induction h with
  | refl c => exact live_ge dbg sink c.prog c.handles c.state
  | next h _ ih => rw [next_live h]; omega

/-- There is a time at which there are so many. -/
theorem live_attained (dbg : Bool) (sink : Sink) {hs : List Handle} (p : Prog hs) (st : HStates hs) (s : WState) :
    ∃ b, Comes dbg sink ⟨hs, p, st, s⟩ b ∧ b.hs.length = live dbg sink p st s := by
  have step : ∀ {a b : Conf}, Next dbg sink a b → (∃ c, Comes dbg sink b c ∧ c.hs.length = live dbg sink b.prog b.handles b.state) →
      ∃ c, Comes dbg sink a c ∧ c.hs.length = live dbg sink a.prog a.handles a.state := by
    intro a b h ⟨c, h1, h2⟩
    by_cases hm : a.hs.length ≤ live dbg sink b.prog b.handles b.state
    · exact ⟨c, .next h h1, by rw [next_live h, h2]; omega⟩
    · exact ⟨a, .refl a, by rw [next_live h]; omega⟩
  induction p generalizing s with
  | ret r => exact ⟨_, .refl _, by simp only [live, here]⟩
  | element name k ih => cases st with | cons n rest => exact step .element (ih _ _)
  | text t k ih => exact step .text (ih _ _ _)
  | «namespace» p u k ih =>
    cases st with
    | cons b rest =>
      cases h : Builder.namespace dbg b p u with
      | error f => exact ⟨_, .refl _, by simp only [live, here, h, List.length_cons]⟩
      | ok b' => exact step (.namespace h) (ih _ _)
  | «attribute» n v k ih =>
    cases st with
    | cons b rest =>
      cases h : Builder.attribute b n v with
      | error f => exact ⟨_, .refl _, by simp only [live, here, h, List.length_cons]⟩
      | ok r => exact step (.attribute (b' := r.1) (r := r.2) h) (ih _ _ _)
  | start ok fail ih ihf =>
    cases st with
    | cons b rest =>
      cases h : Builder.start sink b s with
      | error f => exact ⟨_, .refl _, by simp only [live, here, h, List.length_cons]⟩
      | ok r =>
        obtain ⟨s', r⟩ := r
        cases r with
        | ok n => exact step (.started h) (ih _ _)
        | error e => exact step (.notStarted h) (ihf _ _ _)
  | finish k ih => cases st with | cons n rest => exact step .finish (ih _ _ _)
  | dropBuilder k ih => cases st with | cons n rest => exact step .dropBuilder (ih _ _)
  | dropWriter k ih => cases st with | cons n rest => exact step .dropWriter (ih _ _)
  | forgetBuilder k ih => cases st with | cons n rest => exact step .forgetBuilder (ih _ _)
  | forgetWriter k ih => cases st with | cons n rest => exact step .forgetWriter (ih _ _)

end SX.Stack
