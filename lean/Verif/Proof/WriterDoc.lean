import Verif.Proof.WriterNames

/-
The document written is the document asked for; prefixes of required mappings; results of builder calls.
-/
namespace SX
open Spec

/-! ### Builder calls -/

def Builder.Seen (b : Builder) : Prop := b.seen = b.attrs.map Prod.fst

theorem find_isSome_iff (l : List (EName × String)) (n : EName) :
    (l.find? fun a => a.1 == n).isSome = (l.map Prod.fst).contains n := by
  induction l with
  | nil => rfl
  | cons a l ih =>
    simp only [List.find?_cons, List.map_cons, List.contains_cons]
    by_cases h : a.1 = n
    · simp [h]
    · rw [show (a.1 == n) = false by simpa using h, show (n == a.1) = false by simpa using fun hh => h hh.symm]
      simpa using ih

/-- What a call to `attribute` does. -/
theorem attribute_asks {b : Builder} (h : b.Seen) (n : EName) (v : String) :
    ∃ b', b.attribute n v = .ok (b', addResult b.attrs n v) ∧ b'.Seen ∧ b'.name = b.name ∧ b'.attrs = addAttr b.attrs n v ∧
      (addResult b.attrs n v ≠ .ok () → b' = b) := by
  have hf := find_isSome_iff b.attrs n
  rw [← h] at hf
  unfold Builder.attribute addResult addAttr
  rw [← hf]
  cases hl : b.attrs.find? fun a => a.1 == n with
  | none =>
    refine ⟨_, rfl, ?_, rfl, rfl, fun hh => absurd rfl hh⟩
    simp only [Builder.Seen, List.map_append, List.map_cons, List.map_nil]
    rw [h]
  | some old => exact ⟨b, rfl, h, rfl, rfl, fun _ => rfl⟩

theorem namespace_asks {b b' : Builder} (h : b.Seen) {dbg : Bool} {p u : String} (hr : b.namespace dbg p u = .ok b') :
    b'.Seen ∧ b'.name = b.name ∧ b'.attrs = b.attrs := by
  unfold Builder.namespace at hr
  split at hr
  · simp at hr
  · simp only [Except.ok.injEq] at hr
    subst hr
    exact ⟨h, rfl, rfl⟩

theorem keepFirst_addAttr (l : List (EName × String)) (n : EName) (v : String) :
    addAttr (keepFirst l) n v = keepFirst (l ++ [(n, v)]) := by
  unfold addAttr
  rw [keepFirst_append, keepFirst_find, find_isSome_iff]
  by_cases h : n ∈ l.map Prod.fst
  · simp only [List.contains_iff_mem.mpr h, if_true]
    rw [if_pos h]
  · rw [if_neg (by simpa using h), if_neg h]

theorem runCalls_spec (dbg : Bool) (calls : List BCall) (b : Builder) (hb : b.Seen) (before : List (EName × String))
    (ha : b.attrs = keepFirst before) (b' : Builder) (rs : List (Except SErr Unit)) (h : runCalls dbg calls b = .ok (b', rs)) :
    b'.Seen ∧ b'.name = b.name ∧ b'.attrs = keepFirst (before ++ attrCalls calls) ∧ rs = attrResults before (attrCalls calls) := by
  induction calls generalizing b before rs with
  | nil =>
    simp only [runCalls, Except.ok.injEq, Prod.mk.injEq] at h
    obtain ⟨rfl, rfl⟩ := h
    exact ⟨hb, rfl, by simp [attrCalls, ha], rfl⟩
  | cons c calls ih =>
    cases c with
    | «namespace» p u =>
      simp only [runCalls] at h
      split at h
      · simp at h
      · rename_i b1 h1
        obtain ⟨g1, g2, g3⟩ := namespace_asks hb h1
        obtain ⟨k1, k2, k3, k4⟩ := ih b1 g1 before (by rw [g3, ha]) rs h
        exact ⟨k1, by rw [k2, g2], k3, k4⟩
    | «attribute» n v =>
      simp only [runCalls] at h
      obtain ⟨b1, h1, g1, g2, g3, -⟩ := attribute_asks hb n v
      rw [h1] at h
      simp only at h
      split at h
      · simp at h
      · rename_i b2 rs' h2
        simp only [Except.ok.injEq, Prod.mk.injEq] at h
        obtain ⟨rfl, rfl⟩ := h
        obtain ⟨k1, k2, k3, k4⟩ := ih b1 g1 (before ++ [(n, v)]) (by rw [g3, ha, keepFirst_addAttr]) rs' h2
        refine ⟨k1, by rw [k2, g2], by rw [k3]; simp [attrCalls], ?_⟩
        simp only [attrCalls, attrResults]
        rw [k4, ha]
        congr 1
        unfold addResult
        rw [keepFirst_find]

theorem runCalls_total (calls : List BCall) (b : Builder) (hb : b.Seen) :
    ∃ b' rs, runCalls false calls b = .ok (b', rs) := by
  induction calls generalizing b with
  | nil => exact ⟨b, [], rfl⟩
  | cons c calls ih =>
    cases c with
    | «namespace» p u =>
      have : ∃ b1, b.namespace false p u = .ok b1 := by
        unfold Builder.namespace NsBuilder.insert
        simp only [Bool.false_and, Bool.false_eq_true, if_false]
        cases SMap.get b.ns u with
        | none => exact ⟨_, rfl⟩
        | some e => exact ⟨_, rfl⟩
      obtain ⟨b1, h1⟩ := this
      obtain ⟨b', rs, h⟩ := ih b1 (namespace_asks hb h1).1
      exact ⟨b', rs, by simp [runCalls, h1, h]⟩
    | «attribute» n v =>
      obtain ⟨b1, h1, g1, -⟩ := attribute_asks hb n v
      obtain ⟨b', rs, h⟩ := ih b1 g1
      exact ⟨b', _, by simp only [runCalls, h1, h]; rfl⟩

/-! ### The document asked for -/

def stepAsked : Step → Option EEvent
  | .wrote (.start _ _ _) (some (n, l)) => some (.start n l)
  | .wrote (.chars s) _ => some (.chars s)
  | .wrote .stop _ => some .stop
  | _ => none

def HStates.builders : {hs : List Handle} → HStates hs → List (EName × List (EName × String))
  | _, .nil => []
  | _, .cons (h := .builder) s rest => (Builder.name s, Builder.attrs s) :: rest.builders
  | _, .cons (h := .writer _) _ rest => rest.builders

abbrev HStates.Seen {hs : List Handle} (st : HStates hs) : Prop := st.All Builder.Seen (fun _ => True)

theorem poisonWith_poison (s : WState) (e : SErr) : (s.poisonWith e).poison ≠ none := by simp [WState.poisonWith]

theorem write_wrote {s : WState} {sink : Sink} {e : WEvent} {a : Option (EName × List (EName × String))}
    (h : (s.write sink e a).2 = .ok ()) :
    s.poison = none ∧ (s.write sink e a).1.poison = none ∧ (s.write sink e a).1.steps = s.steps ++ [.wrote e a] := by
  unfold WState.write at h ⊢
  cases hp : s.poison with
  | some p => simp [hp] at h
  | none =>
    simp only [hp] at h ⊢
    cases hs : sink s.out e with
    | some m => simp [hs] at h
    | none => exact ⟨trivial, rfl, rfl⟩

theorem run_poisoned {dbg : Bool} {sink : Sink} {hs : List Handle} {p : Prog hs} {st : HStates hs} {s s' : WState}
    {r : Except SErr Unit} (h : p.run dbg sink st s = .ok (s', r)) (hc : s'.poison = none) : s.poison = none := by
  cases hp : s.poison with
  | none => rfl
  | some e =>
    have := Prog.run_inv dbg sink (fun s => s.poison = some e) (fun s ev a hi => (write_poisoned hi).1)
      (fun s e' hi => by simp [WState.poisonWith, hi]) p st s s' r h hp
    rw [hc] at this
    simp at this

theorem Prog.run_asks (dbg : Bool) (sink : Sink) {hs : List Handle} (p : Prog hs) (st : HStates hs) (hst : st.Seen) (s s' : WState)
    (r : Except SErr Unit) (h : p.run dbg sink st s = .ok (s', r)) (hc : s'.poison = none) :
    ∃ es xs, Prog.asks p st.builders = some (es, r) ∧ s'.steps = s.steps ++ xs ∧ xs.map stepAsked = es.map some := by
  induction p generalizing s with
  | ret r' =>
    simp only [Prog.run, Except.ok.injEq, Prod.mk.injEq] at h
    obtain ⟨rfl, rfl⟩ := h
    exact ⟨[], [], rfl, by simp, rfl⟩
  | element name k ih =>
    cases st with | cons n rest =>
    exact ih _ (all_builder (b := Builder.new name (Namespaces.child n name.ns)) rfl hst) _ h
  | text t k ih =>
    simp only [Prog.run] at h
    have hw := write_clean (run_poisoned h hc)
    obtain ⟨-, -, w3⟩ := write_wrote hw.2.2
    rw [hw.2.2] at h
    obtain ⟨es, xs, h1, h2, h3⟩ := ih _ _ hst _ h
    refine ⟨.chars t :: es, .wrote (.chars t) none :: xs, ?_, ?_, ?_⟩
    · simp [Prog.asks, h1]
    · rw [h2, w3]; simp
    · simp [stepAsked, h3]
  | «namespace» p u k ih =>
    cases st with | cons b rest =>
    simp only [Prog.run] at h
    split at h
    · simp at h
    · rename_i b' hb
      obtain ⟨g1, g2, g3⟩ := namespace_asks hst.1 hb
      obtain ⟨es, xs, h1, h2, h3⟩ := ih _ (all_builder (b := b') g1 hst.2) _ h
      refine ⟨es, xs, ?_, h2, h3⟩
      simp only [Prog.asks, HStates.builders] at h1 ⊢
      rw [← h1, g2, g3]
  | «attribute» n v k ih =>
    cases st with | cons b rest =>
    simp only [Prog.run] at h
    obtain ⟨b', hb, g1, g2, g3, -⟩ := attribute_asks (b := b) hst.1 n v
    rw [hb] at h
    simp only at h
    obtain ⟨es, xs, h1, h2, h3⟩ := ih _ _ (all_builder (b := b') g1 hst.2) _ h
    refine ⟨es, xs, ?_, h2, h3⟩
    simp only [Prog.asks, HStates.builders] at h1 ⊢
    rw [← h1, g2, g3]
  | start ok fail ih1 ih2 =>
    cases st with | cons b rest =>
    simp only [Prog.run] at h
    split at h
    · simp at h
    · rename_i s1 n hs
      obtain ⟨n', q, as, h1, h2, h3, rfl, h4⟩ := start_cases hs
      have hw := write_clean (run_poisoned h hc)
      obtain ⟨-, -, w3⟩ := write_wrote hw.2.2
      obtain ⟨es, xs, k1, k2, k3⟩ := ih1 _ (all_writer trivial hst.2) _ h
      refine ⟨.start (Builder.name b) (Builder.attrs b) :: es,
        .wrote (.start q as n'.byPrefix) (some (Builder.name b, Builder.attrs b)) :: xs, ?_, ?_, ?_⟩
      rotate_left 1
      · rw [k2, w3, List.append_assoc, List.singleton_append]
      · simp [stepAsked, k3]
      · simp only [HStates.builders] at k1
        simp [Prog.asks, HStates.builders, k1]
    · rename_i s1 e hs
      exfalso
      obtain ⟨n', q, as, h1, h2, h3, rfl, h4⟩ := start_cases hs
      have hw := write_clean (run_poisoned h hc)
      rcases h4 with ⟨-, h4⟩ | ⟨e', h4, -⟩
      · simp at h4
      · rw [hw.2.2] at h4; simp at h4
  | finish k ih =>
    cases st with | cons b rest =>
    simp only [Prog.run] at h
    have hw := write_clean (run_poisoned h hc)
    obtain ⟨-, -, w3⟩ := write_wrote hw.2.2
    rw [hw.2.2] at h
    obtain ⟨es, xs, h1, h2, h3⟩ := ih _ _ hst.2 _ h
    refine ⟨.stop :: es, .wrote .stop none :: xs, ?_, ?_, ?_⟩
    · simp [Prog.asks, HStates.builders, h1]
    · rw [h2, w3]; simp
    · simp [stepAsked, h3]
  | dropBuilder k ih => cases st with | cons b rest => simp only [Prog.run] at h; exact absurd (run_poisoned h hc) (poisonWith_poison _ _)
  | dropWriter k ih => cases st with | cons b rest => simp only [Prog.run] at h; exact absurd (run_poisoned h hc) (poisonWith_poison _ _)
  | forgetBuilder k ih =>
    cases st with | cons b rest =>
    obtain ⟨es, xs, h1, h2, h3⟩ := ih _ hst.2 _ h
    exact ⟨es, xs, h1, h2, h3⟩
  | forgetWriter k ih =>
    cases st with | cons b rest =>
    obtain ⟨es, xs, h1, h2, h3⟩ := ih _ hst.2 _ h
    exact ⟨es, xs, h1, h2, h3⟩

def okSome {α : Type} : Except SErr Unit → α → Option α
  | .ok (), a => some a
  | .error _, _ => none

theorem AttrProg.run_asks (dbg : Bool) (p : AttrProg) (b b' : Builder) (hb : b.Seen) (r : Except SErr Unit)
    (h : p.run dbg b = .ok (b', r)) : b'.Seen ∧ b'.name = b.name ∧
      AttrProg.asks p b.attrs = okSome r b'.attrs := by
  induction p generalizing b with
  | ret r' =>
    simp only [AttrProg.run, Except.ok.injEq, Prod.mk.injEq] at h
    obtain ⟨rfl, rfl⟩ := h
    refine ⟨hb, rfl, ?_⟩
    cases r' <;> rfl
  | «namespace» p u k ih =>
    simp only [AttrProg.run] at h
    split at h
    · simp at h
    · rename_i b1 h1
      obtain ⟨g1, g2, g3⟩ := namespace_asks hb h1
      obtain ⟨k1, k2, k3⟩ := ih _ g1 h
      exact ⟨k1, by rw [k2, g2], by simp only [AttrProg.asks]; rw [← k3, g3]⟩
  | «attribute» n v k ih =>
    simp only [AttrProg.run] at h
    obtain ⟨b1, h1, g1, g2, g3, -⟩ := attribute_asks hb n v
    rw [h1] at h
    obtain ⟨k1, k2, k3⟩ := ih _ _ g1 h
    exact ⟨k1, by rw [k2, g2], by simp only [AttrProg.asks]; rw [← k3, g3]⟩

theorem serializeTo_asks {dbg : Bool} {sink : Sink} {name : EName} {attrs : AttrProg} {children : Prog [.writer false]}
    {s : WState} (h : serializeTo dbg sink name attrs children = .ok (s, .ok ())) :
    ∃ es, documentAsked name attrs children = some es ∧ s.steps.map stepAsked = es.map some := by
  unfold serializeTo at h
  simp only at h
  split at h
  · simp at h
  · simp at h
  · rename_i b hb
    obtain ⟨g1, g2, g3⟩ := AttrProg.run_asks dbg attrs (Builder.new name []) _ rfl _ hb
    split at h
    · simp at h
    · simp at h
    · rename_i s1 n hs
      obtain ⟨n', q, as, h1, h2, h3, rfl, h4⟩ := start_cases hs
      split at h
      · simp at h
      · simp at h
      · rename_i s2 hr
        simp only [Except.ok.injEq] at h
        have hw : (s2.write sink .stop none).2 = .ok () := by rw [h]
        have hs2 : s = (s2.write sink .stop none).1 := by rw [h]
        obtain ⟨w1, w2, w3⟩ := write_wrote hw
        have hw1 := write_clean (run_poisoned hr w1)
        obtain ⟨-, -, w4⟩ := write_wrote hw1.2.2
        obtain ⟨es, xs, k1, k2, k3⟩ := Prog.run_asks dbg sink children _ (all_writer trivial all_nil) _ _ _ hr w1
        refine ⟨.start name b.attrs :: (es ++ [.stop]), ?_, ?_⟩
        · unfold documentAsked
          simp only [Builder.new] at g3
          rw [g3]
          simp only [HStates.builders] at k1
          simp [k1, okSome]
        · rw [hs2, w3, k2, w4]
          simp only [List.nil_append, List.map_append, k3, List.map_cons, List.map_nil, stepAsked, g2]
          simp [Builder.new]

/-! ### What a reader sees -/

theorem sequence_eq {α : Type} (l : List (Option α)) (l' : List α) (h : l = l'.map some) : sequence l = some l' := by
  subst h
  induction l' with
  | nil => rfl
  | cons a l ih => simp [sequence, ih]

theorem startOk_attrs {nd : Bool} {q : WName} {as : List (WName × String)} {ns : SMap String} {n : EName} {l : List (EName × String)}
    (h : StartOk nd q as ns n l) (outer : List (SMap String)) :
    sequence (as.map fun a => (resolveAttr (ns :: outer) a.1).map fun n => (n, a.2)) = some l := by
  apply sequence_eq
  have h1 := h.attrs outer
  have h2 := congrArg (List.map fun x : Option EName × String => x.1.map fun n => (n, x.2)) h1
  simp only [List.map_map] at h2
  exact h2

theorem resolveEvents_steps {nd : Bool} (xs : List Step) (es : List EEvent) (h1 : xs.map stepAsked = es.map some)
    (h2 : ∀ x ∈ xs, StepOk nd x) (scopes : List (SMap String))
    (h3 : (∀ n l, EEvent.start n l ∈ es → n.ns ≠ "") ∨ (lookupPrefix scopes "" = none ∧
      ∀ q as ns, WEvent.start q as ns ∈ xs.filterMap stepEvent → SMap.get ns "" = none)) :
    resolveEvents (xs.filterMap stepEvent) scopes = some es := by
  induction xs generalizing es scopes with
  | nil =>
    cases es with
    | nil => rfl
    | cons _ _ => simp at h1
  | cons x xs ih =>
    cases es with
    | nil => simp at h1
    | cons e es =>
      simp only [List.map_cons, List.cons.injEq] at h1
      have hx := h2 x (by simp)
      have hxs : ∀ x ∈ xs, StepOk nd x := fun y hy => h2 y (List.mem_cons_of_mem _ hy)
      cases x with
      | failed _ _ => simp [stepAsked] at h1
      | abandoned _ => simp [stepAsked] at h1
      | wrote ev a =>
        cases ev with
        | chars s =>
          simp only [stepAsked, Option.some.injEq] at h1
          obtain ⟨rfl, h1⟩ := h1
          simp only [List.filterMap_cons, stepEvent, resolveEvents]
          rw [ih es h1 hxs scopes (h3.imp (fun h n l hm => h n l (List.mem_cons_of_mem _ hm))
            (fun h => ⟨h.1, fun q as ns hm => h.2 q as ns (by simp [stepEvent, hm])⟩))]
          rfl
        | stop =>
          simp only [stepAsked, Option.some.injEq] at h1
          obtain ⟨rfl, h1⟩ := h1
          simp only [List.filterMap_cons, stepEvent, resolveEvents]
          rw [ih es h1 hxs scopes.tail (h3.imp (fun h n l hm => h n l (List.mem_cons_of_mem _ hm))
            (fun h => ⟨?_, fun q as ns hm => h.2 q as ns (by simp [stepEvent, hm])⟩))]
          · rfl
          · cases scopes with
            | nil => rfl
            | cons m ms =>
              have := h.1
              simp only [lookupPrefix, List.findSome?_cons] at this ⊢
              split at this
              · simp at this
              · exact this
        | start q as ns =>
          cases a with
          | none => simp [stepAsked] at h1
          | some a =>
            obtain ⟨n, l⟩ := a
            simp only [stepAsked, Option.some.injEq] at h1
            obtain ⟨rfl, h1⟩ := h1
            have hx : StartOk nd q as ns n l := hx
            have helem : resolveElem (ns :: scopes) q = some n := by
              by_cases hns : n.ns = ""
              · rcases h3 with h3 | h3
                · exact absurd hns (h3 n l (by simp))
                · obtain ⟨hq, hd⟩ := hx.plain hns
                  subst hq
                  simp only [resolveElem, lookupPrefix, List.findSome?_cons, hd]
                  rw [show List.findSome? (fun m => SMap.get m "") scopes = none from h3.1]
                  cases n
                  simp only at hns
                  subst hns
                  rfl
              · exact hx.elem scopes hns
            simp only [List.filterMap_cons, stepEvent, resolveEvents, helem, startOk_attrs hx scopes]
            rw [ih es h1 hxs (ns :: scopes) (h3.imp (fun h n l hm => h n l (List.mem_cons_of_mem _ hm))
              (fun h => ⟨?_, fun q as ns hm => h.2 q as ns (by simp [stepEvent, hm])⟩))]
            have h5 := h.2 q as ns (by simp [stepEvent])
            simp only [lookupPrefix, List.findSome?_cons, h5]
            exact h.1

theorem AttrProg.Mappings.mono {M M' : String → String → Prop} (h : ∀ p u, M p u → M' p u) :
    ∀ p, AttrProg.Mappings M p → AttrProg.Mappings M' p
  | .ret _, _ => trivial
  | .namespace _ _ k, hp => ⟨h _ _ hp.1, AttrProg.Mappings.mono h k hp.2⟩
  | .attribute _ _ k, hp => fun r => AttrProg.Mappings.mono h (k r) (hp r)

theorem AttrProg.Mappings.and {M M' : String → String → Prop} :
    ∀ p, AttrProg.Mappings M p → AttrProg.Mappings M' p → AttrProg.Mappings (fun p u => M p u ∧ M' p u) p
  | .ret _, _, _ => trivial
  | .namespace _ _ k, h, h' => ⟨⟨h.1, h'.1⟩, AttrProg.Mappings.and k h.2 h'.2⟩
  | .attribute _ _ k, h, h' => fun r => AttrProg.Mappings.and (k r) (h r) (h' r)

theorem Prog.Mappings.and {M M' : String → String → Prop} {hs : List Handle} (p : Prog hs) (h : Prog.Mappings M p)
    (h' : Prog.Mappings M' p) : Prog.Mappings (fun p u => M p u ∧ M' p u) p := by
  induction p with
  | ret r => trivial
  | element n k ih => exact ih h h'
  | text t k ih => exact fun r => ih r (h r) (h' r)
  | «namespace» p u k ih => exact ⟨⟨h.1, h'.1⟩, ih h.2 h'.2⟩
  | «attribute» n v k ih => exact fun r => ih r (h r) (h' r)
  | start ok fail ih1 ih2 => exact ⟨ih1 h.1 h'.1, fun e => ih2 e (h.2 e) (h'.2 e)⟩
  | finish k ih => exact fun r => ih r (h r) (h' r)
  | dropBuilder k ih => exact ih h h'
  | dropWriter k ih => exact ih h h'
  | forgetBuilder k ih => exact ih h h'
  | forgetWriter k ih => exact ih h h'

theorem Prog.Mappings.mono {M M' : String → String → Prop} (hM : ∀ p u, M p u → M' p u) {hs : List Handle} (p : Prog hs)
    (h : Prog.Mappings M p) : Prog.Mappings M' p := by
  induction p with
  | ret r => trivial
  | element n k ih => exact ih h
  | text t k ih => exact fun r => ih r (h r)
  | «namespace» p u k ih => exact ⟨hM _ _ h.1, ih h.2⟩
  | «attribute» n v k ih => exact fun r => ih r (h r)
  | start ok fail ih1 ih2 => exact ⟨ih1 h.1, fun e => ih2 e (h.2 e)⟩
  | finish k ih => exact fun r => ih r (h r)
  | dropBuilder k ih => exact ih h
  | dropWriter k ih => exact ih h
  | forgetBuilder k ih => exact ih h
  | forgetWriter k ih => exact ih h

theorem AttrProg.Mappings.trivial : ∀ p, AttrProg.Mappings (fun _ _ => True) p
  | .ret _ => True.intro
  | .namespace _ _ k => ⟨True.intro, AttrProg.Mappings.trivial k⟩
  | .attribute _ _ k => fun r => AttrProg.Mappings.trivial (k r)

theorem Prog.Mappings.trivial {hs : List Handle} (p : Prog hs) : Prog.Mappings (fun _ _ => True) p := by
  induction p with
  | ret r => exact True.intro
  | element n k ih => exact ih
  | text t k ih => exact fun r => ih r
  | «namespace» p u k ih => exact ⟨True.intro, ih⟩
  | «attribute» n v k ih => exact fun r => ih r
  | start ok fail ih1 ih2 => exact ⟨ih1, fun e => ih2 e⟩
  | finish k ih => exact fun r => ih r
  | dropBuilder k ih => exact ih
  | dropWriter k ih => exact ih
  | forgetBuilder k ih => exact ih
  | forgetWriter k ih => exact ih

theorem steps_start {nd : Bool} {xs : List Step} (h : ∀ x ∈ xs, StepOk nd x) {q : WName} {as : List (WName × String)}
    {ns : SMap String} (hm : WEvent.start q as ns ∈ xs.filterMap stepEvent) : ∃ n l, StartOk nd q as ns n l := by
  obtain ⟨x, hx, he⟩ := List.mem_filterMap.mp hm
  have hok := h x hx
  cases x with
  | failed _ _ => simp [stepEvent] at he
  | abandoned _ => simp [stepEvent] at he
  | wrote ev a =>
    simp only [stepEvent, Option.some.injEq] at he
    subst he
    cases a with
    | none => exact absurd hok (by simp [StepOk])
    | some a => exact ⟨a.1, a.2, hok⟩

/-! ### Required mappings come first -/

theorem passRequired_filter (m : SMap String) (l : NsBuilder) :
    passRequired m (l.filter fun x => x.2.required) =
      match passRequired m l with
      | .error f => .error f
      | .ok (m', l') => .ok (m', l'.filter fun x => x.2.required) := by
  induction l generalizing m with
  | nil => rfl
  | cons x l ih =>
    obtain ⟨u, e⟩ := x
    by_cases hr : e.required = true
    · simp only [List.filter_cons, hr, if_true, passRequired]
      cases assignRequired m u e with
      | error f => rfl
      | ok y =>
        obtain ⟨m1, p⟩ := y
        simp only
        rw [ih m1]
        cases passRequired m1 l with
        | error f => rfl
        | ok y => simp [hr]
    · simp only [List.filter_cons, hr, passRequired]
      simp only [Bool.not_eq_true] at hr
      simp only [Bool.false_eq_true, if_false]
      rw [ih m]
      cases passRequired m l with
      | error f => rfl
      | ok y => simp [hr]

/-- Dropping the merely inherited mappings does not change what the required ones get. -/
theorem finalize_required (b : NsBuilder) (hb : b.Ok) {n n' : Namespaces} (h : b.finalize = .ok n)
    (h' : NsBuilder.finalize (b.filter fun x => x.2.required) = .ok n') (x : String × NsEntry) (hx : x.2.required = true) :
    x ∈ n.byUrl ↔ x ∈ n'.byUrl := by
  unfold NsBuilder.finalize at h h'
  rw [passRequired_filter] at h'
  obtain ⟨m1, l1, h1, h2, h3, h4, h5⟩ := passRequired_spec [] b (by simp [SMap.keys]) hb.fresh
  rw [h1] at h h'
  simp only [Except.ok.injEq] at h h'
  have hr : ∀ x ∈ l1, x.2.required = false → x.2.assigned = none := by
    intro x hx hxr
    have := h5 x hx
    simpa [hxr] using this
  obtain ⟨m2, l2, k1, -, -, -, k5, k6⟩ := passInherited_spec m1 l1 h3 hr
  obtain ⟨m3, l3, j1, -, -, -, j5, j6⟩ := passInherited_spec m1 (l1.filter fun x => x.2.required) h3 (fun x hx => hr x (List.mem_filter.mp hx).1)
  rw [k1] at h
  rw [j1] at h'
  simp only at h h'
  subst h h'
  simp only
  constructor
  · intro hm
    exact j6 x (List.mem_filter.mpr ⟨k5 x hm hx, by simpa using hx⟩) hx
  · intro hm
    exact k6 x (List.mem_filter.mp (j5 x hm hx)).1 hx

/-- Distinct wishes that can be granted are granted. -/
theorem passRequired_granted (m : SMap String) (l : NsBuilder) (hm : ∀ x ∈ l, x.2.required = true → m.get x.2.requested = none)
    (hd : (l.filter fun x => x.2.required).Pairwise fun x y => x.2.requested ≠ y.2.requested)
    (hn : ∀ x ∈ l, x.2.required = true → x.2.needsPrefix = true → x.2.requested ≠ "") (m' : SMap String) (l' : NsBuilder)
    (h : passRequired m l = .ok (m', l')) :
    l' = l.map fun x => if x.2.required then (x.1, { x.2 with assigned := some x.2.requested }) else x := by
  induction l generalizing m l' with
  | nil =>
    simp only [passRequired, Except.ok.injEq, Prod.mk.injEq] at h
    rw [← h.2]; rfl
  | cons x l ih =>
    obtain ⟨u, e⟩ := x
    by_cases hr : e.required = true
    · have hfree : m.get e.requested = none := hm (u, e) (by simp) hr
      have hneed : e.needsPrefix = true → e.requested ≠ "" := hn (u, e) (by simp) hr
      have ha : assignRequired m u e = .ok (SMap.insertNew e.requested u m, e.requested) := by
        unfold assignRequired nsPut
        have : (!(e.needsPrefix && e.requested == "")) = true := by
          cases hnp : e.needsPrefix with
          | false => rfl
          | true => simpa using hneed hnp
        simp [this, hfree]
      simp only [List.filter_cons, hr, if_true, List.pairwise_cons] at hd
      simp only [passRequired, hr, if_true, ha] at h
      split at h
      · simp at h
      · rename_i m1 l1 h1
        simp only [Except.ok.injEq, Prod.mk.injEq] at h
        obtain ⟨rfl, rfl⟩ := h
        have := ih (SMap.insertNew e.requested u m) ?_ hd.2 (fun x hx => hn x (List.mem_cons_of_mem _ hx)) l1 ?_
        · rw [this]; simp [hr]
        · intro x hx hxr
          rw [SMap.get_insertNew _ _ _ _ hfree]
          rw [if_neg (hd.1 x (List.mem_filter.mpr ⟨hx, by simpa using hxr⟩))]
          exact hm x (List.mem_cons_of_mem _ hx) hxr
        · exact h1
    · simp only [passRequired, hr] at h
      simp only [Bool.false_eq_true, if_false] at h
      split at h
      · simp at h
      · rename_i m1 l1 h1
        simp only [Except.ok.injEq, Prod.mk.injEq] at h
        obtain ⟨rfl, rfl⟩ := h
        have := ih m (fun x hx => hm x (List.mem_cons_of_mem _ hx)) (by simpa [List.filter_cons, hr] using hd)
          (fun x hx => hn x (List.mem_cons_of_mem _ hx)) l1 h1
        rw [this]
        simp [hr]

end SX
