import Verif.Proof.WriterTotal

/-
Elements in no namespace: exactly where their names mean what was asked for.
-/
namespace SX
open Spec

/-- Where elements in no namespace are written, no default namespace is in force. -/
def PlainSteps : List Step → List (SMap String) → Prop
  | [], _ => True
  | .wrote (.start _ _ ns) asked :: xs, sc =>
    (∀ n l, asked = some (n, l) → n.ns = "" → lookupPrefix sc "" = none) ∧ PlainSteps xs (ns :: sc)
  | .wrote (.chars _) _ :: xs, sc => PlainSteps xs sc
  | .wrote .stop _ :: xs, sc => PlainSteps xs sc.tail
  | .failed _ _ :: xs, sc => PlainSteps xs sc
  | .abandoned _ :: xs, sc => PlainSteps xs sc

theorem openScopes_append (l l' : List WEvent) (sc : List (SMap String)) :
    openScopes (l ++ l') sc = openScopes l' (openScopes l sc) := by
  induction l generalizing sc with
  | nil => rfl
  | cons e l ih => cases e <;> exact ih _

theorem plainSteps_append (xs ys : List Step) (sc : List (SMap String)) :
    PlainSteps (xs ++ ys) sc ↔ PlainSteps xs sc ∧ PlainSteps ys (openScopes (xs.filterMap stepEvent) sc) := by
  induction xs generalizing sc with
  | nil => simp [PlainSteps, openScopes]
  | cons x xs ih =>
    cases x with
    | wrote e a =>
      cases e with
      | start q as ns =>
        simp only [List.cons_append, PlainSteps, ih, List.filterMap_cons, stepEvent, openScopes]
        exact ⟨fun h => ⟨⟨h.1, h.2.1⟩, h.2.2⟩, fun h => ⟨h.1.1, h.1.2, h.2⟩⟩
      | chars s => simp only [List.cons_append, PlainSteps, ih, List.filterMap_cons, stepEvent, openScopes]
      | stop => simp only [List.cons_append, PlainSteps, ih, List.filterMap_cons, stepEvent, openScopes]
    | failed _ _ => simp only [List.cons_append, PlainSteps, ih, List.filterMap_cons, stepEvent]
    | abandoned _ => simp only [List.cons_append, PlainSteps, ih, List.filterMap_cons, stepEvent]

theorem plainSteps_iff (xs : List Step) (sc : List (SMap String)) : PlainSteps xs sc ↔
    ∀ pre q as ns n l post, xs = pre ++ .wrote (.start q as ns) (some (n, l)) :: post → n.ns = "" →
      lookupPrefix (openScopes (pre.filterMap stepEvent) sc) "" = none := by
  constructor
  · rintro h pre q as ns n l post rfl hn
    exact (((plainSteps_append _ _ _).mp h).2).1 n l rfl hn
  · intro h
    induction xs generalizing sc with
    | nil => trivial
    | cons x xs ih =>
      have key : ∀ sc', openScopes ([x].filterMap stepEvent) sc = sc' → PlainSteps xs sc' := by
        rintro sc' rfl
        apply ih
        rintro pre q as ns n l post rfl hn
        have := h (x :: pre) q as ns n l post rfl hn
        rwa [show x :: pre = [x] ++ pre from rfl, List.filterMap_append, openScopes_append] at this
      cases x with
      | wrote e a =>
        cases e with
        | start q as ns =>
          refine ⟨?_, key _ rfl⟩
          rintro n l rfl hn
          exact h [] q as ns n l xs rfl hn
        | chars s => exact key _ rfl
        | stop => exact key _ rfl
      | failed _ _ => exact key _ rfl
      | abandoned _ => exact key _ rfl

/-- What a reader sees is what was asked for, exactly if elements in no namespace are not written where a default namespace is in force. -/
theorem resolveEvents_iff {nd : Bool} (xs : List Step) (es : List EEvent) (h1 : xs.map stepAsked = es.map some)
    (h2 : ∀ x ∈ xs, StepOk nd x) (scopes : List (SMap String)) (h3 : ∀ m ∈ scopes, ∀ p, SMap.get m p ≠ some "") :
    resolveEvents (xs.filterMap stepEvent) scopes = some es ↔ PlainSteps xs scopes := by
  induction xs generalizing es scopes with
  | nil =>
    cases es with
    | nil => simp [resolveEvents, PlainSteps]
    | cons _ _ => simp at h1
  | cons x xs ih =>
    cases es with
    | nil => simp at h1
    | cons e es =>
      simp only [List.map_cons, List.cons.injEq] at h1
      have hx := h2 x (by simp)
      have hxs : ∀ x ∈ xs, StepOk nd x := fun y hy => h2 y (List.mem_cons_of_mem _ hy)
      cases x with
      | failed _ _ => simp [stepAsked] at h1
      | abandoned _ => simp [stepAsked] at h1
      | wrote ev a =>
        cases ev with
        | chars s =>
          simp only [stepAsked, Option.some.injEq] at h1
          obtain ⟨rfl, h1⟩ := h1
          simp only [List.filterMap_cons, stepEvent, resolveEvents, PlainSteps]
          rw [← ih es h1 hxs scopes h3]
          simp
        | stop =>
          simp only [stepAsked, Option.some.injEq] at h1
          obtain ⟨rfl, h1⟩ := h1
          simp only [List.filterMap_cons, stepEvent, resolveEvents, PlainSteps]
          rw [← ih es h1 hxs scopes.tail fun m hm => h3 m (List.mem_of_mem_tail hm)]
          simp
        | start q as ns =>
          cases a with
          | none => simp [stepAsked] at h1
          | some a =>
            obtain ⟨n, l⟩ := a
            simp only [stepAsked, Option.some.injEq] at h1
            obtain ⟨rfl, h1⟩ := h1
            have hx : StartOk nd q as ns n l := hx
            have h3' : ∀ m ∈ ns :: scopes, ∀ p, SMap.get m p ≠ some "" := by
              intro m hm
              rcases List.mem_cons.mp hm with rfl | hm
              · exact hx.nonEmpty
              · exact h3 m hm
            have helem : resolveElem (ns :: scopes) q = some n ↔ (n.ns = "" → lookupPrefix scopes "" = none) := by
              by_cases hns : n.ns = ""
              · obtain ⟨hq, hd⟩ := hx.plain hns
                subst hq
                simp only [resolveElem, lookupPrefix, List.findSome?_cons, hd, Option.some.injEq]
                cases n
                simp only at hns
                subst hns
                simp only [EName.mk.injEq, and_true, true_implies]
                cases hl : List.findSome? (fun m => SMap.get m "") scopes with
                | none => simp
                | some u =>
                  simp only [Option.getD_some, reduceCtorEq, iff_false]
                  rintro rfl
                  obtain ⟨m, hm, hme⟩ := List.exists_of_findSome?_eq_some hl
                  exact h3 m hm _ hme
              · exact ⟨fun _ h => absurd h hns, fun _ => hx.elem scopes hns⟩
            have hiff := ih es h1 hxs (ns :: scopes) h3'
            simp only [List.filterMap_cons, stepEvent, resolveEvents, startOk_attrs hx scopes, PlainSteps, Option.some.injEq, Prod.mk.injEq]
            have hc : (∀ n_1 l_1, n = n_1 ∧ l = l_1 → n_1.ns = "" → lookupPrefix scopes "" = none) ↔ (n.ns = "" → lookupPrefix scopes "" = none) :=
              ⟨fun h => h n l ⟨rfl, rfl⟩, fun h a b hab => by rw [← hab.1]; exact h⟩
            rw [hc, ← helem, ← hiff]
            cases resolveElem (ns :: scopes) q with
            | none => simp
            | some n' =>
              cases resolveEvents (xs.filterMap stepEvent) (ns :: scopes) with
              | none => simp
              | some es' => simp

/-! ### Programs that do not write elements in no namespace where they asked for a default namespace -/

/-- The mappings of the writers held, innermost first. -/
def HStates.scopes : {hs : List Handle} → HStates hs → List (SMap String)
  | _, .nil => []
  | _, .cons (h := .builder) _ rest => rest.scopes
  | _, .cons (h := .writer _) n rest => Namespaces.byPrefix n :: rest.scopes

def Spec.HScope.dflt : HScope → Bool
  | .builder _ _ _ d => d
  | .writer _ d => d

/-- Default namespaces are inherited. -/
def Inherits (scs : List HScope) : Prop := scs.Pairwise fun inner outer => inner.dflt = false → outer.dflt = false

theorem scopes_clear {hs : List Handle} (st : HStates hs) (scs : List HScope) (h : st.Are scs) (hc : ∀ sc ∈ scs, sc.dflt = false) :
    lookupPrefix st.scopes "" = none := by
  induction st generalizing scs with
  | nil => rfl
  | @cons hd hs s rest ih =>
    cases scs with
    | nil => exact h.elim
    | cons sc scs =>
      have := ih scs h.2 fun x hx => hc x (List.mem_cons_of_mem _ hx)
      cases hd with
      | builder => exact this
      | writer o =>
        cases sc with
        | builder _ _ _ _ => exact h.1.elim
        | writer sc d =>
          have hw : WriterIs sc d s := h.1
          have hd : d = false := hc _ List.mem_cons_self
          subst hd
          have hnone : SMap.get (Namespaces.byPrefix s) "" = none :=
            (SMap.get_none _ _).mpr fun hk => (hw.good.notXml _ hk).2 rfl rfl
          simp only [HStates.scopes, lookupPrefix, List.findSome?_cons, hnone]
          exact this

/-- The state agrees with the mappings in force. -/
structure Tracks (sc : List (SMap String)) (s : WState) : Prop where
  sticky : Sticky s
  scopes : s.poison = none → openScopes s.out [] = sc
  plain : PlainSteps s.steps []

theorem Tracks.poisoned {sc : List (SMap String)} {s : WState} (h : Tracks sc s) (hp : s.poison ≠ none) (sc' : List (SMap String)) :
    Tracks sc' s := ⟨h.sticky, fun h' => absurd h' hp, h.plain⟩

theorem Tracks.poisonWith {sc : List (SMap String)} {s : WState} (h : Tracks sc s) (e : SErr) (sc' : List (SMap String)) :
    Tracks sc' (s.poisonWith e) := by
  refine ⟨h.sticky.poisonWith e, fun h' => absurd h' (poisonWith_poison s e), ?_⟩
  simp only [WState.poisonWith]
  exact (plainSteps_append _ _ _).mpr ⟨h.plain, trivial⟩

theorem write_error {s : WState} {sink : Sink} {e : WEvent} {a : Option (EName × List (EName × String))} {x : SErr}
    (h : (s.write sink e a).2 = .error x) : (s.write sink e a).1.poison ≠ none := by
  unfold WState.write at h ⊢
  cases hp : s.poison with
  | some p => simp
  | none =>
    simp only [hp] at h ⊢
    cases hs : sink s.out e with
    | some m => simp
    | none => simp [hs] at h

theorem Tracks.write {sc : List (SMap String)} {s : WState} (h : Tracks sc s) (sink : Sink) (e : WEvent)
    (a : Option (EName × List (EName × String)))
    (hp : ∀ q as ns n l, e = .start q as ns → a = some (n, l) → n.ns = "" → lookupPrefix sc "" = none) :
    Tracks (openScopes [e] sc) (s.write sink e a).1 := by
  refine ⟨h.sticky.write sink e a, ?_, ?_⟩
  · intro hc
    obtain ⟨h1, h2, -⟩ := write_clean hc
    rw [h2, openScopes_append, h.scopes h1]
  · have hs := h.sticky
    unfold WState.write
    cases hpo : s.poison with
    | some p => exact (plainSteps_append _ _ _).mpr ⟨h.plain, trivial⟩
    | none =>
      simp only
      cases hsi : sink s.out e with
      | some m => exact (plainSteps_append _ _ _).mpr ⟨h.plain, trivial⟩
      | none =>
        refine (plainSteps_append _ _ _).mpr ⟨h.plain, ?_⟩
        rw [← hs.out, h.scopes hpo]
        cases e with
        | start q as ns => exact ⟨fun n l ha hn => hp q as ns n l rfl ha hn, trivial⟩
        | chars s => trivial
        | stop => trivial

theorem Prog.run_plain (dbg : Bool) (sink : Sink) {hs : List Handle} (p : Prog hs) (scs : List HScope) (hp : Prog.Declared p scs)
    (hf : NoForget p) (st : HStates hs) (hst : st.Are scs) (hi : Inherits scs) (s s' : WState) (r : Except SErr Unit)
    (ht : Tracks st.scopes s) (h : p.run dbg sink st s = .ok (s', r)) : PlainSteps s'.steps [] := by
  induction p generalizing s scs with
  | ret r =>
    simp only [Prog.run, Except.ok.injEq, Prod.mk.injEq] at h
    rw [← h.1]; exact ht.plain
  | element name k ih =>
    cases st with | cons n rest =>
    cases scs with
    | nil => exact hst.elim
    | cons sc scs =>
      cases sc with
      | builder _ _ _ _ => exact hp.elim
      | writer sc d =>
        have hi' : Inherits (.builder name sc (if name.ns ∈ sc then [name.ns] else []) d :: .writer sc d :: scs) := by
          refine List.pairwise_cons.mpr ⟨?_, hi⟩
          intro x hx
          rcases List.mem_cons.mp hx with rfl | hx
          · exact id
          · exact (List.pairwise_cons.mp hi).1 x hx
        exact ih _ hp hf _ (are_builder (WriterIs.child hst.1 name) hst) hi' s ht h
  | text t k ih =>
    simp only [Prog.run] at h
    have : ∀ res, Prog.Declared (k res) scs := by
      cases scs with
      | nil => exact hp
      | cons sc scs => exact hp
    exact ih _ scs (this _) (hf _) st hst hi _ (ht.write sink (.chars t) none (by simp)) h
  | «namespace» p u k ih =>
    cases st with | cons b rest =>
    cases scs with
    | nil => exact hst.elim
    | cons sc scs =>
      cases sc with
      | writer _ _ => exact hp.elim
      | builder n i r d =>
        obtain ⟨b', h1, h2⟩ := BuilderIs.namespace (dbg := dbg) hst.1 hp.1
        simp only [Prog.run, h1] at h
        have hi' : Inherits (.builder n i (u :: r) (d || p == "") :: scs) := by
          refine List.pairwise_cons.mpr ⟨?_, (List.pairwise_cons.mp hi).2⟩
          intro x hx hd
          simp only [HScope.dflt, Bool.or_eq_false_iff] at hd
          exact (List.pairwise_cons.mp hi).1 x hx hd.1
        exact ih _ hp.2 hf _ (are_builder h2 hst.2) hi' s ht h
  | «attribute» a v k ih =>
    cases st with | cons b rest =>
    cases scs with
    | nil => exact hst.elim
    | cons sc scs =>
      cases sc with
      | writer _ _ => exact hp.elim
      | builder n i r d =>
        obtain ⟨b', res, h1, h2⟩ := BuilderIs.attribute hst.1 v hp.1
        simp only [Prog.run, h1] at h
        exact ih _ _ (hp.2 _) (hf _) _ (are_builder h2 hst.2) hi s ht h
  | start ok fail ih1 ih2 =>
    cases st with | cons b rest =>
    cases scs with
    | nil => exact hst.elim
    | cons sc scs =>
      cases sc with
      | writer _ _ => exact hp.elim
      | builder n i r d =>
        have hb : BuilderIs n i r d b := hst.1
        obtain ⟨s1, res, h1, h2⟩ := BuilderIs.start hb hp.1 sink s
        obtain ⟨m, q, as, -, -, -, h3, h4⟩ := start_cases h1
        simp only [Prog.run, h1] at h
        have hplain : n.ns = "" → lookupPrefix rest.scopes "" = none := by
          intro hn
          have hd : d = false := by
            rcases hp.1 with hx | hx | hx
            · rw [hn] at hx; exact absurd hx (by decide)
            · rw [hn] at hx
              obtain ⟨e, he, -⟩ := hb.required _ hx
              rw [hb.good.noEmpty] at he
              simp at he
            · exact hx.2
          exact scopes_clear rest scs hst.2 fun x hx => (List.pairwise_cons.mp hi).1 x hx hd
        have ht1 : Tracks (m.byPrefix :: rest.scopes) s1 := by
          rw [h3]
          refine Tracks.write (sc := rest.scopes) ht sink (.start q as m.byPrefix) _ ?_
          intro q' as' ns' n' l' _ ha hn
          simp only [Option.some.injEq, Prod.mk.injEq] at ha
          rw [← ha.1, show Builder.name b = n from hb.name] at hn
          exact hplain hn
        cases res with
        | ok m' =>
          have hm : m' = m := by
            rcases h4 with ⟨-, h4⟩ | ⟨e, -, h4⟩
            · simpa using h4
            · simp at h4
          subst hm
          have hi' : Inherits (.writer r d :: scs) :=
            List.pairwise_cons.mpr ⟨(List.pairwise_cons.mp hi).1, (List.pairwise_cons.mp hi).2⟩
          exact ih1 _ hp.2.1 hf.1 _ (are_writer (h2 m' rfl) hst.2) hi' s1 ht1 h
        | error e =>
          have hpo : s1.poison ≠ none := by
            rcases h4 with ⟨-, h4⟩ | ⟨e', h4, -⟩
            · simp at h4
            · rw [h3]; exact write_error h4
          exact ih2 e _ (hp.2.2 e) (hf.2 e) _ hst.2 (List.pairwise_cons.mp hi).2 s1 (ht1.poisoned hpo _) h
  | finish k ih =>
    cases st with | cons b rest =>
    cases scs with
    | nil => exact hst.elim
    | cons sc scs =>
      simp only [Prog.run] at h
      exact ih _ _ (hp _) (hf _) _ hst.2 (List.pairwise_cons.mp hi).2 _ (ht.write sink .stop none (by simp)) h
  | dropBuilder k ih =>
    cases st with | cons b rest =>
    cases scs with
    | nil => exact hst.elim
    | cons sc scs => exact ih _ hp hf _ hst.2 (List.pairwise_cons.mp hi).2 _ (ht.poisonWith _ _) h
  | dropWriter k ih =>
    cases st with | cons b rest =>
    cases scs with
    | nil => exact hst.elim
    | cons sc scs => exact ih _ hp hf _ hst.2 (List.pairwise_cons.mp hi).2 _ (ht.poisonWith _ _) h
  | forgetBuilder k ih =>
    cases st with | cons b rest =>
    cases scs with
    | nil => exact hst.elim
    | cons sc scs => exact ih _ hp hf _ hst.2 (List.pairwise_cons.mp hi).2 _ ht h
  | forgetWriter k ih => exact hf.elim

theorem serializeTo_plain {dbg : Bool} {sink : Sink} {name : EName} {attrs : AttrProg} {children : Prog [.writer false]}
    (hd : DocumentDeclared name attrs children) (hf : NoForget children) {s : WState} {r : Except SErr Unit}
    (h : serializeTo dbg sink name attrs children = .ok (s, r)) : PlainSteps s.steps [] := by
  have hroot : BuilderIs name [] [] false (Builder.new name []) :=
    ⟨root_good name, rfl, by simp, by simp, rfl, by intro a ha; simp [Builder.new] at ha⟩
  obtain ⟨b, res, h1, h2⟩ := AttrProg.run_total dbg attrs name [] [] false _ hd _ hroot
  have h0 : Tracks [] { out := [], poison := none, steps := [] } :=
    ⟨⟨rfl, fun _ => by simp, fun _ h => by simp at h⟩, fun _ => rfl, trivial⟩
  unfold serializeTo at h
  simp only [h1] at h
  cases res with
  | error e =>
    simp only [Except.ok.injEq, Prod.mk.injEq] at h
    rw [← h.1]
    exact (h0.poisonWith _ []).plain
  | ok u =>
    obtain ⟨r', d', h3, h4, h5⟩ := h2 rfl
    obtain ⟨s1, res, k1, k2⟩ := BuilderIs.start h3 h4 sink { out := [], poison := none, steps := [] }
    obtain ⟨m, q, as, -, -, -, k3, k4⟩ := start_cases k1
    have ht1 : Tracks (m.byPrefix :: []) s1 := by
      rw [k3]
      exact Tracks.write (sc := []) h0 sink (.start q as m.byPrefix) _ (fun _ _ _ _ _ _ _ _ => rfl)
    simp only [k1] at h
    cases res with
    | error e =>
      simp only [Except.ok.injEq, Prod.mk.injEq] at h
      rw [← h.1]
      exact ht1.plain
    | ok m' =>
      have hm : m' = m := by
        rcases k4 with ⟨-, h4⟩ | ⟨e, -, h4⟩
        · simpa using h4
        · simp at h4
      subst hm
      simp only at h
      have hrun : ∀ s2 res, children.run dbg sink (.cons (h := .writer false) m' .nil) s1 = .ok (s2, res) → PlainSteps s2.steps [] :=
        fun s2 res hr => Prog.run_plain dbg sink children _ h5 hf (.cons (h := .writer false) m' .nil) ⟨k2 m' rfl, trivial⟩ (List.pairwise_singleton _ _) s1 s2 res ht1 hr
      split at h
      · simp at h
      · rename_i s2 e hr
        simp only [Except.ok.injEq, Prod.mk.injEq] at h
        rw [← h.1]
        exact (plainSteps_append _ _ _).mpr ⟨hrun _ _ hr, trivial⟩
      · rename_i s2 hr
        simp only [Except.ok.injEq] at h
        have hp := hrun _ _ hr
        have : (s2.write sink .stop none).1 = s := by rw [h]
        rw [← this]
        unfold WState.write
        split
        · exact (plainSteps_append _ _ _).mpr ⟨hp, trivial⟩
        · split
          · exact (plainSteps_append _ _ _).mpr ⟨hp, trivial⟩
          · exact (plainSteps_append _ _ _).mpr ⟨hp, trivial⟩

/-! ### The mappings declared programs ask for -/

theorem AttrProg.Declared.mappings {M : String → String → Prop} (hM : ∀ p u, MayDeclare p u → M p u) (p : AttrProg) (sc : HScope)
    (K : HScope → Prop) (h : AttrProg.Declared p sc K) : AttrProg.Mappings M p := by
  induction p generalizing sc with
  | ret r => trivial
  | «namespace» p u k ih =>
    cases sc with
    | writer _ _ => exact absurd h (by simp [AttrProg.Declared])
    | builder n i r d => exact ⟨hM _ _ h.1, ih _ h.2⟩
  | «attribute» n v k ih =>
    cases sc with
    | writer _ _ => exact absurd h (by simp [AttrProg.Declared])
    | builder n i r d => exact fun res => ih res _ (h.2 res)

theorem Prog.Declared.mappings {M : String → String → Prop} (hM : ∀ p u, MayDeclare p u → M p u) {hs : List Handle} (p : Prog hs)
    (scs : List HScope) (h : Prog.Declared p scs) : Prog.Mappings M p := by
  induction p generalizing scs with
  | ret r => trivial
  | element n k ih =>
    cases scs with
    | nil => exact h.elim
    | cons sc scs => cases sc with
      | builder _ _ _ _ => exact h.elim
      | writer _ _ => exact ih _ h
  | text t k ih =>
    intro r
    cases scs with
    | nil => exact ih r _ (h r)
    | cons sc scs => exact ih r _ (h r)
  | «namespace» p u k ih =>
    cases scs with
    | nil => exact h.elim
    | cons sc scs => cases sc with
      | writer _ _ => exact h.elim
      | builder _ _ _ _ => exact ⟨hM _ _ h.1, ih _ h.2⟩
  | «attribute» n v k ih =>
    cases scs with
    | nil => exact h.elim
    | cons sc scs => cases sc with
      | writer _ _ => exact h.elim
      | builder _ _ _ _ => exact fun r => ih r _ (h.2 r)
  | start ok fail ih1 ih2 =>
    cases scs with
    | nil => exact h.elim
    | cons sc scs => cases sc with
      | writer _ _ => exact h.elim
      | builder _ _ _ _ => exact ⟨ih1 _ h.2.1, fun e => ih2 e _ (h.2.2 e)⟩
  | finish k ih =>
    cases scs with
    | nil => exact h.elim
    | cons sc scs => exact fun r => ih r _ (h r)
  | dropBuilder k ih =>
    cases scs with
    | nil => exact h.elim
    | cons sc scs => exact ih _ h
  | dropWriter k ih =>
    cases scs with
    | nil => exact h.elim
    | cons sc scs => exact ih _ h
  | forgetBuilder k ih =>
    cases scs with
    | nil => exact h.elim
    | cons sc scs => exact ih _ h
  | forgetWriter k ih =>
    cases scs with
    | nil => exact h.elim
    | cons sc scs => exact ih _ h

theorem documentDeclared_children {dbg : Bool} {sink : Sink} {name : EName} {attrs : AttrProg} {children : Prog [.writer false]}
    (hd : DocumentDeclared name attrs children) {s : WState}
    (h : serializeTo dbg sink name attrs children = .ok (s, .ok ())) : ∃ r d, Prog.Declared children [.writer r d] := by
  have hroot : BuilderIs name [] [] false (Builder.new name []) :=
    ⟨root_good name, rfl, by simp, by simp, rfl, by intro a ha; simp [Builder.new] at ha⟩
  obtain ⟨b, res, h1, h2⟩ := AttrProg.run_total dbg attrs name [] [] false _ hd _ hroot
  unfold serializeTo at h
  simp only [h1] at h
  cases res with
  | error e => simp at h
  | ok u =>
    obtain ⟨r', d', -, -, h5⟩ := h2 rfl
    exact ⟨r', d', h5⟩

end SX
