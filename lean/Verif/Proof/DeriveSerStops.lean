import Verif.Spec.Stops
import Verif.Proof.DeriveSer

/-
Derived serialization passes on every error at once.
-/
namespace SX
open Spec

/-- The program only drops its handles and returns the error. -/
def Prog.Gives (e : SErr) : {hs : List Handle} → Prog hs → Prop
  | _, .ret r => r = .error e
  | _, .dropBuilder k => k.Gives e
  | _, .dropWriter k => k.Gives e
  | _, _ => False

/-- On every error the program gives up with it. -/
def Prog.Strict : {hs : List Handle} → Prog hs → Prop
  | _, .ret r => r = .ok ()
  | _, .element _ k => k.Strict
  | _, .text _ k => (k (.ok ())).Strict ∧ ∀ e, (k (.error e)).Gives e
  | _, .namespace _ _ k => k.Strict
  | _, .attribute _ _ k => (k (.ok ())).Strict ∧ ∀ e, ∃ k', k (.error e) = .dropBuilder k' ∧ k'.Gives e
  | _, .start ok fail => ok.Strict ∧ ∀ e, (fail e).Gives e
  | _, .finish k => (k (.ok ())).Strict ∧ ∀ e, (k (.error e)).Gives e
  | _, .dropBuilder _ => False
  | _, .dropWriter _ => False
  | _, .forgetBuilder _ => False
  | _, .forgetWriter _ => False

def AttrProg.Strict : AttrProg → Prop
  | .ret r => r = .ok ()
  | .namespace _ _ k => k.Strict
  | .attribute _ _ k => (k (.ok ())).Strict ∧ ∀ e, k (.error e) = .ret (.error e)

/-! ### Running -/

theorem gives_run (dbg : Bool) (sink : Sink) (e : SErr) {hs : List Handle} (p : Prog hs) (h : p.Gives e) (st : HStates hs) (s : WState) :
    ∃ s' post, p.run dbg sink st s = .ok (s', .error e) ∧ s'.steps = s.steps ++ post ∧ (∀ y ∈ post, ∃ e', y = .abandoned e') := by
  induction p generalizing s with
  | ret r =>
    simp only [Prog.Gives] at h
    subst h
    exact ⟨s, [], rfl, by simp, by simp⟩
  | dropBuilder k ih =>
    cases st with
    | cons b rest =>
      obtain ⟨s', post, h1, h2, h3⟩ := ih h rest (s.poisonWith .builderDropped)
      refine ⟨s', .abandoned .builderDropped :: post, h1, by rw [h2]; simp [WState.poisonWith], ?_⟩
      intro y hy
      rcases List.mem_cons.mp hy with rfl | hy
      · exact ⟨_, rfl⟩
      · exact h3 y hy
  | dropWriter k ih =>
    cases st with
    | cons b rest =>
      obtain ⟨s', post, h1, h2, h3⟩ := ih h rest (s.poisonWith .writerDropped)
      refine ⟨s', .abandoned .writerDropped :: post, h1, by rw [h2]; simp [WState.poisonWith], ?_⟩
      intro y hy
      rcases List.mem_cons.mp hy with rfl | hy
      · exact ⟨_, rfl⟩
      · exact h3 y hy
  | _ => exact h.elim

/-- No error so far. -/
def Untroubled (s : WState) : Prop := s.poison = none ∧ ∀ y ∈ s.steps, stepError y = none

theorem write_untroubled {sink : Sink} {s : WState} (h : Untroubled s) (ev : WEvent) (a : Option (EName × List (EName × String))) :
    ((s.write sink ev a).2 = .ok () ∧ Untroubled (s.write sink ev a).1) ∨
    ∃ e, (s.write sink ev a).2 = .error e ∧ (s.write sink ev a).1.steps = s.steps ++ [.failed ev e] := by
  unfold WState.write
  rw [h.1]
  cases hs : sink s.out ev with
  | some m => exact .inr ⟨_, rfl, rfl⟩
  | none =>
    refine .inl ⟨rfl, ?_, ?_⟩
    · rfl
    · intro y hy
      simp only [List.mem_append, List.mem_singleton] at hy
      rcases hy with hy | rfl
      · exact h.2 y hy
      · rfl

/-- How a strict program ends. -/
def Ended (x : WState × Except SErr Unit) : Prop := (x.2 = .ok () ∧ Untroubled x.1) ∨ ∃ e, x.2 = .error e ∧ StoppedBy e x.1.steps

theorem ended_failed {dbg : Bool} {sink : Sink} {e : SErr} {hs : List Handle} {p : Prog hs} (hp : p.Gives e) (st : HStates hs) {s s1 : WState}
    {ev : WEvent} (hs : Untroubled s) (h : s1.steps = s.steps ++ [.failed ev e]) {x : WState × Except SErr Unit}
    (hx : p.run dbg sink st s1 = .ok x) : Ended x := by
  obtain ⟨s', post, h1, h2, h3⟩ := gives_run dbg sink e p hp st s1
  rw [h1] at hx
  cases hx
  exact .inr ⟨e, rfl, s.steps, .failed ev e, post, by rw [h2, h]; simp, hs.2, h3, .inl ⟨ev, rfl⟩⟩

theorem strict_run (dbg : Bool) (sink : Sink) {hs : List Handle} (p : Prog hs) (h : p.Strict) (st : HStates hs) (s : WState)
    (hs : Untroubled s) (x : WState × Except SErr Unit) (hx : p.run dbg sink st s = .ok x) : Ended x := by
  induction p generalizing s with
  | ret r =>
    simp only [Prog.Strict] at h
    subst h
    cases hx
    exact .inl ⟨rfl, hs⟩
  | element name k ih =>
    cases st with
    | cons n rest => exact ih h _ s hs hx
  | text t k ih =>
    have hx : (k (s.write sink (.chars t) none).2).run dbg sink st (s.write sink (.chars t) none).1 = .ok x := hx
    rcases write_untroubled (sink := sink) hs (.chars t) none with ⟨h1, h2⟩ | ⟨e, h1, h2⟩
    · rw [h1] at hx
      exact ih _ h.1 _ _ h2 hx
    · rw [h1] at hx
      exact ended_failed (h.2 e) _ hs h2 hx
  | «namespace» p u k ih =>
    cases st with
    | cons b rest =>
      simp only [Prog.run] at hx
      split at hx
      · simp at hx
      · exact ih h _ _ hs hx
  | «attribute» n v k ih =>
    cases st with
    | cons b rest =>
      simp only [Prog.run] at hx
      cases hb : Builder.attribute b n v with
      | error f => simp only [hb] at hx; simp at hx
      | ok br =>
        obtain ⟨b', r⟩ := br
        simp only [hb] at hx
        cases r with
        | ok u => exact ih _ h.1 _ _ hs hx
        | error e =>
          obtain ⟨k', h1, h2⟩ := h.2 e
          rw [h1] at hx
          have hx : k'.run dbg sink rest (s.poisonWith .builderDropped) = .ok x := hx
          obtain ⟨s', post, g1, g2, g3⟩ := gives_run dbg sink e k' h2 rest (s.poisonWith .builderDropped)
          rw [g1] at hx
          cases hx
          refine .inr ⟨e, rfl, s.steps, .abandoned .builderDropped, post, by rw [g2]; simp [WState.poisonWith], hs.2, g3, .inr ⟨rfl, ?_⟩⟩
          unfold Builder.attribute at hb
          split at hb
          · split at hb
            · simp at hb
            · simp only [Except.ok.injEq] at hb
              exact ⟨_, _, _, (Except.error.inj (Prod.mk.inj hb).2).symm⟩
          · simp at hb
  | start ok fail ih1 ih2 =>
    cases st with
    | cons b rest =>
      simp only [Prog.run] at hx
      split at hx
      · simp at hx
      · rename_i s1 n hb
        obtain ⟨n', q, as, _, _, _, rfl, h4⟩ := start_cases hb
        rcases write_untroubled (sink := sink) hs (.start q as n'.byPrefix) (some (Builder.name b, Builder.attrs b)) with ⟨g1, g2⟩ | ⟨e, g1, g2⟩
        · exact ih1 h.1 _ _ g2 hx
        · rw [g1] at h4; simp at h4
      · rename_i s1 e hb
        obtain ⟨n', q, as, _, _, _, rfl, h4⟩ := start_cases hb
        rcases write_untroubled (sink := sink) hs (.start q as n'.byPrefix) (some (Builder.name b, Builder.attrs b)) with ⟨g1, g2⟩ | ⟨e', g1, g2⟩
        · rw [g1] at h4; simp at h4
        · rw [g1] at h4
          simp at h4
          subst h4
          exact ended_failed (h.2 _) _ hs g2 hx
  | finish k ih =>
    cases st with
    | cons n rest =>
      have hx : (k (s.write sink .stop none).2).run dbg sink rest (s.write sink .stop none).1 = .ok x := hx
      rcases write_untroubled (sink := sink) hs .stop none with ⟨h1, h2⟩ | ⟨e, h1, h2⟩
      · rw [h1] at hx
        exact ih _ h.1 _ _ h2 hx
      · rw [h1] at hx
        exact ended_failed (h.2 e) _ hs h2 hx
  | dropBuilder k ih => exact h.elim
  | dropWriter k ih => exact h.elim
  | forgetBuilder k ih => exact h.elim
  | forgetWriter k ih => exact h.elim

theorem attr_strict_run (dbg : Bool) (a : AttrProg) (h : a.Strict) (b b' : Builder) (e : SErr) (hr : a.run dbg b = .ok (b', .error e)) :
    ∃ n x y, e = .duplicateAttribute n x y := by
  induction a generalizing b with
  | ret r =>
    simp only [AttrProg.Strict] at h
    subst h
    cases hr
  | «namespace» p u k ih =>
    simp only [AttrProg.run] at hr
    split at hr
    · simp at hr
    · exact ih h _ hr
  | «attribute» n v k ih =>
    simp only [AttrProg.run] at hr
    cases hb : b.attribute n v with
    | error f => simp only [hb] at hr; simp at hr
    | ok br =>
      obtain ⟨b1, r⟩ := br
      simp only [hb] at hr
      cases r with
      | ok u => exact ih _ h.1 _ hr
      | error e' =>
        rw [h.2 e'] at hr
        simp only [AttrProg.run, Except.ok.injEq, Prod.mk.injEq, Except.error.injEq] at hr
        rw [← hr.2]
        unfold Builder.attribute at hb
        split at hb
        · split at hb
          · simp at hb
          · simp only [Except.ok.injEq, Prod.mk.injEq, Except.error.injEq] at hb
            exact ⟨_, _, _, hb.2.symm⟩
        · simp at hb

/-! ### The generated code -/

theorem strict_andThen {a b : AttrProg} (ha : a.Strict) (hb : b.Strict) : (a.andThen b).Strict := by
  induction a with
  | ret r =>
    simp only [AttrProg.Strict] at ha
    subst ha
    exact hb
  | «namespace» p u k ih => exact ih ha
  | «attribute» n v k ih => exact ⟨ih _ ha.1, fun e => by dsimp only; rw [ha.2 e]; rfl⟩

theorem strict_namespaces (l : List (String × String)) : (writeNamespaces l).Strict := by
  induction l with
  | nil => rfl
  | cons x l ih => exact ih

theorem strict_attr (o : Bool) (t : TextTy) (n : EName) (v : Val) : (writeAttr o t n v).Strict := by
  unfold writeAttr
  have : ∀ tv, AttrProg.Strict (match t.toText tv with
      | some s => .attribute n s fun r => .ret r
      | none => .ret (.ok ())) := by
    intro tv
    split
    · exact ⟨rfl, fun e => rfl⟩
    · rfl
  dsimp only
  split
  · exact this _
  · exact this _
  · rfl

theorem strict_attrFields (fs : List Field) (vs : List Val) : (writeAttrFields fs vs).Strict := by
  induction fs generalizing vs with
  | nil => cases vs <;> rfl
  | cons f fs ih =>
    cases vs with
    | nil => rfl
    | cons v vs =>
      simp only [writeAttrFields]
      split
      · exact strict_andThen (strict_attr ..) (ih vs)
      · exact ih vs

theorem strict_flattenAttrs (env : Env) (fs : List Field) : (writeFlattenAttrs env fs).Strict := by
  induction fs with
  | nil => rfl
  | cons f fs ih =>
    simp only [writeFlattenAttrs]
    split
    · exact strict_andThen (strict_namespaces _) ih
    · exact ih

theorem strict_attributes (env : Env) (ty : Ty) (v : Val) : (writeAttributes env ty v).Strict := by
  unfold writeAttributes
  split
  · exact strict_andThen (strict_namespaces _) (strict_andThen (strict_attrFields _ _) (strict_flattenAttrs env _))
  · exact strict_namespaces _
  · rfl

theorem strict_embed {hs : List Handle} (a : AttrProg) (ha : a.Strict) (k : Except SErr Unit → Prog (.builder :: hs))
    (hk : (k (.ok ())).Strict) (he : ∀ e, ∃ k', k (.error e) = .dropBuilder k' ∧ k'.Gives e) : (a.embed k).Strict := by
  induction a with
  | ret r =>
    simp only [AttrProg.Strict] at ha
    subst ha
    exact hk
  | «namespace» p u b ih => exact ih ha
  | «attribute» n v b ih => exact ⟨ih _ ha.1, fun e => by dsimp only; rw [ha.2 e]; exact he e⟩

/-- What to do next, if it passes on errors. -/
def WCont.Passing {o : Bool} {hs : List Handle} (k : WCont o hs) : Prop := (k (.ok ())).Strict ∧ ∀ e, (k (.error e)).Gives e

theorem strict_items (env : Env) {l : List Item} {f : EForest}
    (h : Shows env l f) : ∀ {o : Bool} {hs : List Handle} (k : WCont o hs), k.Passing → (runItems env l k).Strict := by
  have next : ∀ {o : Bool} {hs : List Handle} (k : WCont o hs) (p : Prog (.writer o :: hs)), k.Passing → p.Strict →
      (k.next p).Passing := fun k p hk hp => ⟨hp, hk.2⟩
  have elem : ∀ {o : Bool} {hs : List Handle} (name : EName) (ty : Ty) (v : Val) (k : WCont o hs), k.Passing →
      (∀ k : WCont true (.writer o :: hs), k.Passing → (writeChildren env ty v k).Strict) →
      (writeElem name (writeAttributes env ty v) (fun k => writeChildren env ty v k) k).Strict := by
    intro o hs name ty v k hk hc
    refine strict_embed _ (strict_attributes env ty v) _ ?_ fun e => ⟨_, rfl, hk.2 e⟩
    exact ⟨hc _ ⟨hk, hk.2⟩, hk.2⟩
  induction h with
  | nil => intro o hs k hk; exact hk.1
  | unit rest ih =>
    intro o hs k hk
    have := next k _ hk (ih k hk)
    exact ⟨this, this.2⟩
  | @text n t tv s l f h rest ih =>
    intro o hs k hk
    refine elem n _ _ _ (next k _ hk (ih k hk)) ?_
    intro k hk
    rw [writeChildren.eq_def]
    simp only [h]
    exact hk
  | strct children rest ihc ih =>
    intro o hs k hk
    refine elem _ _ _ _ (next k _ hk (ih k hk)) ?_
    intro k hk
    rw [writeStruct_items]
    exact ihc k hk
  | enm children rest ihc ih =>
    intro o hs k hk
    refine elem _ _ _ _ (next k _ hk (ih k hk)) ?_
    intro k hk
    rw [writeVariant_items]
    exact ihc k hk

theorem ret_passing : WCont.Passing (fun r => Prog.ret r) := ⟨rfl, fun _ => rfl⟩

theorem strict_children (env : Env) {name : EName} {ty : Ty} {v : Val}
    {as : List (EName × String)} {g : EForest} (h : Represents env name ty v as g) : (writeChildren env ty v .ret).Strict := by
  cases h with
  | text h r => rw [writeChildren.eq_def]; simp only [h]; exact ret_passing
  | strct h r => rw [writeStruct_items]; exact strict_items env h _ ret_passing
  | enm h r => rw [writeVariant_items]; exact strict_items env h _ ret_passing

theorem derived_ended (dbg : Bool) (sink : Sink) (env : Env) (name : EName) {ty : Ty} {v : Val} (hv : HasTy env ty v)
    (x : WState × Except SErr Unit) (h : serializeVal dbg sink env name ty v = .ok x) : Ended x := by
  obtain ⟨as, g, hr⟩ := represents_exists hv name
  have hc := strict_children env hr
  have h0 : Untroubled { out := [], poison := none, steps := [] } := ⟨rfl, by simp⟩
  unfold serializeVal serializeTo at h
  dsimp only at h
  split at h
  · simp at h
  · rename_i b e ha
    cases h
    obtain ⟨n, y, z, he⟩ := attr_strict_run dbg _ (strict_attributes env ty v) _ _ _ ha
    exact .inr ⟨e, rfl, [], .abandoned .builderDropped, [], rfl, by simp, by simp, .inr ⟨rfl, n, y, z, he⟩⟩
  · rename_i b ha
    split at h
    · simp at h
    · rename_i s1 e hb
      cases h
      obtain ⟨n', q, as, _, _, _, rfl, h4⟩ := start_cases hb
      rcases write_untroubled (sink := sink) h0 (.start q as n'.byPrefix) (some (b.name, b.attrs)) with ⟨g1, g2⟩ | ⟨e', g1, g2⟩
      · rw [g1] at h4; simp at h4
      · rw [g1] at h4
        simp at h4
        subst h4
        exact .inr ⟨_, rfl, [], _, [], g2, by simp, by simp, .inl ⟨_, rfl⟩⟩
    · rename_i s1 n hb
      obtain ⟨n', q, as, _, _, _, rfl, h4⟩ := start_cases hb
      rcases write_untroubled (sink := sink) h0 (.start q as n'.byPrefix) (some (b.name, b.attrs)) with ⟨g1, g2⟩ | ⟨e', g1, g2⟩
      · split at h
        · simp at h
        · rename_i s2 e hrun
          cases h
          rcases strict_run dbg sink _ hc _ _ g2 _ hrun with ⟨h1, _⟩ | ⟨e', h1, pre, x, post, h2, h3, h4, h5⟩
          · simp at h1
          · simp only [Except.error.injEq] at h1
            subst h1
            refine .inr ⟨_, rfl, pre, x, post ++ [.abandoned .writerDropped], ?_, h3, ?_, h5⟩
            · show s2.steps ++ [_] = _
              have h2 : s2.steps = _ := h2
              rw [h2]; simp
            · intro y hy
              rcases List.mem_append.mp hy with hy | hy
              · exact h4 y hy
              · exact ⟨_, List.mem_singleton.mp hy⟩
        · rename_i s2 hrun
          rcases strict_run dbg sink _ hc _ _ g2 _ hrun with ⟨_, h1⟩ | ⟨e', h1, _⟩
          · simp only [Except.ok.injEq] at h
            rcases write_untroubled (sink := sink) h1 .stop none with ⟨w1, w2⟩ | ⟨e, w1, w2⟩
            · rw [h] at w1 w2
              exact .inl ⟨w1, w2⟩
            · rw [h] at w1 w2
              exact .inr ⟨e, w1, s2.steps, _, [], w2, h1.2, by simp, .inl ⟨_, rfl⟩⟩
          · simp at h1
      · rw [g1] at h4; simp at h4

end SX
