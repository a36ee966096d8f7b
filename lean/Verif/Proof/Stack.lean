import Verif.Spec.Stack
import Verif.Proof.DerivePrune

/-
Reading with a limited call stack.
-/
namespace SX
open Spec

namespace Stack

/-! ### Where there is no overflow, the limit makes no difference -/

theorem readLoopIn_agrees {σ : Type} (dbg : Bool) (V : Visitor σ) (fuel : Nat) : ∀ (room : Nat) (er : ElemReader) (v : σ) (s : RState) r,
    readLoopIn dbg V fuel room er v s = some r → readLoop dbg V fuel er v s = r := by
  induction fuel with
  | zero => intro room er v s r h; simpa [readLoopIn, readLoop] using h
  | succ fuel ih =>
    intro room er v s r h
    unfold readLoopIn at h
    unfold readLoop
    split at h
    · rename_i hd; rw [if_pos hd]; simpa using h
    · rename_i hd
      rw [if_neg hd]
      cases hn : next dbg s with
      | error f => rw [hn] at h; simpa using h
      | ok x =>
        obtain ⟨x, s1⟩ := x
        rw [hn] at h
        cases x with
        | error e => simpa using h
        | ok x =>
          obtain ⟨e, pos⟩ := x
          cases e with
          | end_ name => simpa using h
          | chars str =>
            simp only at h ⊢
            cases hc : V.onChars v str pos with
            | error f => rw [hc] at h; simpa using h
            | ok y =>
              obtain ⟨v', y⟩ := y
              rw [hc] at h
              cases y with
              | error e => simpa using h
              | ok u => exact ih _ _ _ _ _ h
          | start attrs ns =>
            simp only at h ⊢
            cases hs : s1.stack[er.stackPos + 1]? with
            | none => rw [hs] at h; simpa using h
            | some elem =>
              rw [hs] at h
              simp only at h ⊢
              cases ha : V.onElem v { name := elem.name, ns, depth := er.stackPos + 1 + 1 } with
              | done y =>
                rw [ha] at h
                simp only at h ⊢
                cases y with
                | error f => simpa using h
                | ok y =>
                  obtain ⟨v', y⟩ := y
                  cases y with
                  | error e => simpa using h
                  | ok u =>
                    simp only at h ⊢
                    cases hr : returnToDepth dbg (er.stackPos + 1) s1 with
                    | error f => rw [hr] at h; simpa using h
                    | ok z =>
                      obtain ⟨z, s2⟩ := z
                      rw [hr] at h
                      cases z with
                      | error e => simpa using h
                      | ok u => exact ih _ _ _ _ _ h
              | readString k =>
                rw [ha] at h
                simp only at h ⊢
                cases hst : readString dbg { ns, attrs, stackPos := er.stackPos + 1 } fuel "" s1 with
                | error f => rw [hst] at h; simpa using h
                | ok y =>
                  obtain ⟨y, s2⟩ := y
                  rw [hst] at h
                  simp only at h ⊢
                  cases hk : k y with
                  | error f => rw [hk] at h; simpa using h
                  | ok y =>
                    obtain ⟨v', y⟩ := y
                    rw [hk] at h
                    cases y with
                    | error e => simpa using h
                    | ok u =>
                      simp only at h ⊢
                      cases hr : returnToDepth dbg (er.stackPos + 1) s2 with
                      | error f => rw [hr] at h; simpa using h
                      | ok z =>
                        obtain ⟨z, s3⟩ := z
                        rw [hr] at h
                        cases z with
                        | error e => simpa using h
                        | ok u => exact ih _ _ _ _ _ h
              | readTo sub k =>
                rw [ha] at h
                cases room with
                | zero => simp at h
                | succ room =>
                  simp only at h ⊢
                  have rest : ∀ (y : Except Fault (σ × Except VErr Unit)) (s2 : RState),
                      (match (some (.ok (y, s2)) : Option (Except Fault ((Except Fault (σ × Except VErr Unit)) × RState))) with
                        | none => none
                        | some (.error f) => some (.error f)
                        | some (.ok (.error f, _)) => some (.error f)
                        | some (.ok (.ok (v, .error e), s)) => some (.ok (v, .error (.propagate (e.toError s.stack pos)), s))
                        | some (.ok (.ok (v, .ok ()), s)) =>
                          match returnToDepth dbg (er.stackPos + 1) s with
                          | .error f => some (.error f)
                          | .ok (.error e, s) => some (.ok (v, .error (.propagate e), s))
                          | .ok (.ok (), s) => readLoopIn dbg V fuel (room + 1) er v s) = some r →
                      (match (.ok (y, s2) : Except Fault ((Except Fault (σ × Except VErr Unit)) × RState)) with
                        | .error f => .error f
                        | .ok (.error f, _) => .error f
                        | .ok (.ok (v, .error e), s) => .ok (v, .error (.propagate (e.toError s.stack pos)), s)
                        | .ok (.ok (v, .ok ()), s) =>
                          match returnToDepth dbg (er.stackPos + 1) s with
                          | .error f => .error f
                          | .ok (.error e, s) => .ok (v, .error (.propagate e), s)
                          | .ok (.ok (), s) => readLoop dbg V fuel er v s) = r := by
                    intro y s2 h
                    cases y with
                    | error f => simpa using h
                    | ok y =>
                      obtain ⟨v', y⟩ := y
                      cases y with
                      | error e => simpa using h
                      | ok u =>
                        simp only at h ⊢
                        cases hr : returnToDepth dbg (er.stackPos + 1) s2 with
                        | error f => rw [hr] at h; simpa using h
                        | ok z =>
                          obtain ⟨z, s3⟩ := z
                          rw [hr] at h
                          cases z with
                          | error e => simpa using h
                          | ok u => exact ih _ _ _ _ _ h
                  cases hv : visitAttrs V s1.stack elem.pos attrs sub with
                  | error f => rw [hv] at h; simpa using h
                  | ok y =>
                    obtain ⟨sub', y⟩ := y
                    rw [hv] at h
                    cases y with
                    | error e => exact rest _ _ h
                    | ok u =>
                      simp only at h ⊢
                      cases hl : readLoopIn dbg V fuel room { ns, attrs, stackPos := er.stackPos + 1 } sub' s1 with
                      | none => rw [hl] at h; simp at h
                      | some z =>
                        rw [hl] at h
                        rw [ih _ _ _ _ _ hl]
                        cases z with
                        | error f => simpa using h
                        | ok z =>
                          obtain ⟨sub2, z, s2⟩ := z
                          exact rest _ _ h

theorem readToIn_agrees {σ : Type} (dbg : Bool) (V : Visitor σ) (fuel room : Nat) (er : ElemReader) (v : σ) (s : RState) r
    (h : readToIn dbg V fuel room er v s = some r) : readTo dbg V fuel er v s = r := by
  unfold readToIn at h
  unfold readTo
  cases room with
  | zero => simp at h
  | succ room =>
    simp only at h
    cases hs : s.stack[er.stackPos]? with
    | none => rw [hs] at h; simpa using h
    | some elem =>
      rw [hs] at h
      simp only at h ⊢
      cases hv : visitAttrs V s.stack elem.pos er.attrs v with
      | error f => rw [hv] at h; simpa using h
      | ok y =>
        obtain ⟨v', y⟩ := y
        rw [hv] at h
        cases y with
        | error e => simpa using h
        | ok u => exact readLoopIn_agrees _ _ _ _ _ _ _ _ h

theorem runDeserIn_agrees {σ α : Type} (dbg : Bool) (V : Visitor σ) (D : Deser σ α) (fuel room : Nat) (er : ElemReader) (s : RState) r
    (h : runDeserIn dbg V D fuel room er s = some r) : runDeser dbg V D fuel er s = r := by
  unfold runDeserIn at h
  unfold runDeser
  cases hs : s.stack[er.stackPos]? with
  | none => rw [hs] at h; simpa using h
  | some elem =>
    rw [hs] at h
    simp only at h ⊢
    cases ha : D { name := elem.name, ns := er.ns, depth := er.stackPos + 1 } with
    | done y =>
      rw [ha] at h
      cases y <;> simpa using h
    | readString k =>
      rw [ha] at h
      simp only at h ⊢
      cases hst : readString dbg er fuel "" s with
      | error f => rw [hst] at h; simpa using h
      | ok y =>
        obtain ⟨y, s2⟩ := y
        rw [hst] at h
        simp only at h ⊢
        cases hk : k y <;> (rw [hk] at h; simpa using h)
    | readTo sub k =>
      rw [ha] at h
      simp only at h ⊢
      cases hl : readToIn dbg V fuel room er sub s with
      | none => rw [hl] at h; simp at h
      | some z =>
        rw [hl] at h
        rw [readToIn_agrees _ _ _ _ _ _ _ _ hl]
        cases z with
        | error f => simpa using h
        | ok z =>
          obtain ⟨sub2, z, s2⟩ := z
          simp only at h ⊢
          cases hk : k sub2 z <;> (rw [hk] at h; simpa using h)

theorem readIn_agrees {σ α : Type} (dbg : Bool) (V : Visitor σ) (D : Deser σ α) (room : Nat) (i : Input) r
    (h : readIn dbg V D room i = some r) : read dbg V D i = r := by
  unfold readIn at h
  unfold read
  cases hr : root dbg i.start with
  | error f => rw [hr] at h; simpa using h
  | ok x =>
    obtain ⟨x, s⟩ := x
    rw [hr] at h
    cases x with
    | error e => simpa using h
    | ok er =>
      simp only at h ⊢
      cases hd : runDeserIn dbg V D (s.inner.items.length + 1) room er s with
      | none => rw [hd] at h; simp at h
      | some y =>
        rw [hd] at h
        rw [runDeserIn_agrees _ _ _ _ _ _ _ _ hd]
        cases y with
        | error f => simpa using h
        | ok y =>
          obtain ⟨y, s2⟩ := y
          cases y with
          | error e => simpa using h
          | ok a =>
            simp only at h ⊢
            cases he : endDoc dbg s2 with
            | error f => rw [he] at h; simpa using h
            | ok z =>
              rw [he] at h
              cases z <;> simpa using h

/-! ### Where visitors are given to others only with less room, there is no overflow -/

theorem visitAttrs_safe {σ : Type} {V : Visitor σ} {Safe : Nat → σ → Prop} (hb : Bounded V Safe) {r : Nat} (stack : List StackElem) (pos : Pos)
    (as : List XAttr) : ∀ (v v' : σ) e, Safe r v → visitAttrs V stack pos as v = .ok (v', e) → Safe r v' := by
  induction as with
  | nil =>
    intro v v' e hs h
    simp only [visitAttrs, Except.ok.injEq, Prod.mk.injEq] at h
    rw [← h.1]; exact hs
  | cons a as ih =>
    intro v v' e hs h
    unfold visitAttrs at h
    split at h
    · cases h
    · rename_i v1 e1 h1
      simp only [Except.ok.injEq, Prod.mk.injEq] at h
      rw [← h.1]; exact hb.attr hs h1
    · rename_i v1 h1
      exact ih _ _ _ (hb.attr hs h1) h

theorem readLoopIn_bounded {σ : Type} (dbg : Bool) {V : Visitor σ} {Safe : Nat → σ → Prop} (hb : Bounded V Safe) (fuel : Nat) :
    ∀ (room : Nat) (er : ElemReader) (v : σ) (s : RState), Safe room v → readLoopIn dbg V fuel room er v s ≠ none := by
  induction fuel with
  | zero => intro room er v s hs; simp [readLoopIn]
  | succ fuel ih =>
    intro room er v s hs
    unfold readLoopIn
    split
    · simp
    · cases hn : next dbg s with
      | error f => simp
      | ok x =>
        obtain ⟨x, s1⟩ := x
        cases x with
        | error e => simp
        | ok x =>
          obtain ⟨e, pos⟩ := x
          cases e with
          | end_ name => simp
          | chars str =>
            simp only
            cases hc : V.onChars v str pos with
            | error f => simp
            | ok y =>
              obtain ⟨v', y⟩ := y
              cases y with
              | error e => simp
              | ok u => exact ih _ _ _ _ (hb.chars hs hc)
          | start attrs ns =>
            simp only
            cases hst : s1.stack[er.stackPos + 1]? with
            | none => simp
            | some elem =>
              simp only
              have rest : ∀ (y : Except Fault (σ × Except VErr Unit)) (s2 : RState), (∀ v' e, y = .ok (v', e) → Safe room v') →
                  (match (some (.ok (y, s2)) : Option (Except Fault ((Except Fault (σ × Except VErr Unit)) × RState))) with
                    | none => none
                    | some (.error f) => some (.error f)
                    | some (.ok (.error f, _)) => some (.error f)
                    | some (.ok (.ok (v, .error e), s)) => some (.ok (v, .error (.propagate (e.toError s.stack pos)), s))
                    | some (.ok (.ok (v, .ok ()), s)) =>
                      match returnToDepth dbg (er.stackPos + 1) s with
                      | .error f => some (.error f)
                      | .ok (.error e, s) => some (.ok (v, .error (.propagate e), s))
                      | .ok (.ok (), s) => readLoopIn dbg V fuel room er v s) ≠ none := by
                intro y s2 hy
                cases y with
                | error f => simp
                | ok y =>
                  obtain ⟨v', y⟩ := y
                  cases y with
                  | error e => simp
                  | ok u =>
                    simp only
                    cases hr : returnToDepth dbg (er.stackPos + 1) s2 with
                    | error f => simp
                    | ok z =>
                      obtain ⟨z, s3⟩ := z
                      cases z with
                      | error e => simp
                      | ok u => exact ih _ _ _ _ (hy _ _ rfl)
              cases ha : V.onElem v { name := elem.name, ns, depth := er.stackPos + 1 + 1 } with
              | done y =>
                simp only
                refine rest _ _ fun v' e hy => ?_
                subst hy
                exact hb.done hs ha
              | readString k =>
                simp only
                cases hst : readString dbg { ns, attrs, stackPos := er.stackPos + 1 } fuel "" s1 with
                | error f => simp
                | ok y =>
                  obtain ⟨y, s2⟩ := y
                  simp only
                  exact rest _ _ fun v' e hy => hb.text hs ha hy
              | readTo sub k =>
                obtain ⟨r', rfl, hsub⟩ := hb.room hs ha
                simp only
                cases hv : visitAttrs V s1.stack elem.pos attrs sub with
                | error f => simp
                | ok y =>
                  obtain ⟨sub', y⟩ := y
                  cases y with
                  | error e => exact rest _ _ fun v' e hy => hb.after hs ha hy
                  | ok u =>
                    simp only
                    cases hl : readLoopIn dbg V fuel r' { ns, attrs, stackPos := er.stackPos + 1 } sub' s1 with
                    | none => exact absurd hl (ih _ _ _ _ (visitAttrs_safe hb _ _ _ _ _ _ hsub hv))
                    | some z =>
                      cases z with
                      | error f => simp
                      | ok z =>
                        obtain ⟨sub2, z, s2⟩ := z
                        exact rest _ _ fun v' e hy => hb.after hs ha hy

theorem readToIn_bounded {σ : Type} (dbg : Bool) {V : Visitor σ} {Safe : Nat → σ → Prop} (hb : Bounded V Safe) (fuel room : Nat)
    (er : ElemReader) (v : σ) (s : RState) (hs : Safe room v) : readToIn dbg V fuel (room + 1) er v s ≠ none := by
  unfold readToIn
  simp only
  cases s.stack[er.stackPos]? with
  | none => simp
  | some elem =>
    simp only
    cases hv : visitAttrs V s.stack elem.pos er.attrs v with
    | error f => simp
    | ok y =>
      obtain ⟨v', y⟩ := y
      cases y with
      | error e => simp
      | ok u => exact readLoopIn_bounded dbg hb _ _ _ _ _ (visitAttrs_safe hb _ _ _ _ _ _ hs hv)

theorem readIn_bounded {σ α : Type} (dbg : Bool) {V : Visitor σ} {Safe : Nat → σ → Prop} (hb : Bounded V Safe) (D : Deser σ α) (room : Nat)
    (hD : ∀ info sub k, D info = .readTo sub k → ∃ r, room = r + 1 ∧ Safe r sub) (i : Input) :
    readIn dbg V D room i = some (read dbg V D i) := by
  have key : readIn dbg V D room i ≠ none := by
    unfold readIn
    cases hr : root dbg i.start with
    | error f => simp
    | ok x =>
      obtain ⟨x, s⟩ := x
      cases x with
      | error e => simp
      | ok er =>
        simp only
        have hrun : runDeserIn dbg V D (s.inner.items.length + 1) room er s ≠ none := by
          unfold runDeserIn
          cases s.stack[er.stackPos]? with
          | none => simp
          | some elem =>
            simp only
            cases ha : D { name := elem.name, ns := er.ns, depth := er.stackPos + 1 } with
            | done y => cases y <;> simp
            | readString k =>
              simp only
              cases readString dbg er (s.inner.items.length + 1) "" s with
              | error f => simp
              | ok y => simp only; cases k y.1 <;> simp
            | readTo sub k =>
              obtain ⟨r, rfl, hs⟩ := hD _ _ _ ha
              simp only
              cases hl : readToIn dbg V (s.inner.items.length + 1) (r + 1) er sub s with
              | none => exact absurd hl (readToIn_bounded dbg hb _ _ _ _ _ hs)
              | some z =>
                cases z with
                | error f => simp
                | ok z => simp only; cases k z.1 z.2.1 <;> simp
        cases hd : runDeserIn dbg V D (s.inner.items.length + 1) room er s with
        | none => exact absurd hd hrun
        | some y =>
          cases y with
          | error f => simp
          | ok y =>
            obtain ⟨y, s2⟩ := y
            cases y with
            | error e => simp
            | ok a =>
              simp only
              cases endDoc dbg s2 with
              | error f => simp
              | ok z => cases z <;> simp
  cases h : readIn dbg V D room i with
  | none => exact absurd h key
  | some r => rw [readIn_agrees _ _ _ _ _ _ h]

/-! ### Derived types -/

/-- The type of a visitor. -/
def tyOf : DState → Ty
  | .strct i _ => .strct i
  | .enm i _ => .enm i

/-- `P` holds of everything an action can result in, `Q` of the visitor it reads with. -/
def Can {σ ρ : Type} (P : ρ → Prop) (Q : σ → Prop) : Action σ ρ → Prop
  | .done r => P r
  | .readString k => ∀ x, P (k x)
  | .readTo sub k => Q sub ∧ ∀ s x, P (k s x)

theorem Can.map {σ ρ ρ' : Type} {P : ρ → Prop} {P' : ρ' → Prop} {Q : σ → Prop} {a : Action σ ρ} {f : ρ → ρ'} (h : Can P Q a)
    (hf : ∀ r, P r → P' (f r)) : Can P' Q (a.map f) := by
  cases a with
  | done r => exact hf _ h
  | readString k => exact fun x => hf _ (h x)
  | readTo sub k => exact ⟨h.1, fun s x => hf _ (h.2 s x)⟩

theorem Can.mono {σ ρ : Type} {P : ρ → Prop} {Q Q' : σ → Prop} {a : Action σ ρ} (h : Can P Q a) (hq : ∀ s, Q s → Q' s) : Can P Q' a := by
  cases a with
  | done r => exact h
  | readString k => exact h
  | readTo sub k => exact ⟨hq _ h.1, h.2⟩

theorem deserTy_can (env : Env) (ty : Ty) : Can (fun _ => True) (fun sub => tyOf sub = ty) (deserTy env ty) := by
  cases ty with
  | text t => intro x; trivial
  | strct i => exact ⟨rfl, fun _ _ => trivial⟩
  | enm i => exact ⟨rfl, fun _ _ => trivial⟩

theorem slotInit_can (env : Env) (s : Slot) : Can (fun _ => True) (fun sub => tyOf sub = s.ty) (slotInit env s) :=
  (deserTy_can env s.ty).map fun _ _ => trivial

theorem slotUpdate_can (env : Env) (s : Slot) (cell : Option Val) (n : EName) :
    Can (fun _ => True) (fun sub => tyOf sub = s.ty) (slotUpdate env s cell n) := by
  unfold slotUpdate
  split
  · split <;> trivial
  · split <;> trivial
  · split
    · exact (deserTy_can env s.ty).map fun _ _ => trivial
    · trivial

theorem enumElement_can {env : Env} (hok : EnvOk env) {e : Nat} {st : FState} {n : EName} {a}
    (h : enumElement env e st n = .ok a) :
    match a with
    | none => variantOf (env.enm e) n = none
    | some act => Can (fun _ => True) (fun sub => enumUse (env.enm e) n = .as (tyOf sub)) act := by
  unfold enumElement at h
  simp only [lookup_variant env hok e n] at h
  have slot : ∀ {i : Nat} {v : Variant} {s : Slot}, variantOf (env.enm e) n = some i → (env.enm e).variants[i]? = some v → v.slot = some s →
      ∀ sub, tyOf sub = s.ty → enumUse (env.enm e) n = .as (tyOf sub) := by
    intro i v s h1 h2 h3 sub hs
    unfold enumUse
    rw [h1]
    simp only [h2, h3, hs]
  split at h
  · split at h
    · cases h
    · split at h
      · cases h
      · rename_i i payload _ _ v hv
        split at h
        · rename_i hf
          split at h
          · cases h; trivial
          · rename_i s hs
            cases h
            exact ((slotUpdate_can env s payload n).map fun _ _ => trivial).mono (slot hf hv hs)
        · split at h
          · cases h; trivial
          · cases h; trivial
    · cases h
  · split at h
    · rename_i hf
      cases h
      exact hf
    · rename_i i hf
      split at h
      · cases h
      · rename_i v hv
        split at h
        · cases h; trivial
        · rename_i s hs
          cases h
          exact ((slotInit_can env s).map fun _ _ => trivial).mono (slot hf hv hs)

/-- The visitor stays one of its type. -/
def Keeps (ty : Ty) (r : Except Fault (DState × Except VErr Unit)) : Prop := ∀ v e, r = .ok (v, e) → tyOf v = ty

theorem delegate_can {env : Env} (hok : EnvOk env) (i : Nat) (fs : List FState) (n : EName) (l : List (Nat × Nat)) :
    Can (Keeps (.strct i)) (fun sub => flatUse env (l.map Prod.snd) n = .as (tyOf sub)) (delegate env i fs n l) := by
  induction l with
  | nil => intro v e h; cases h; rfl
  | cons x l ih =>
    obtain ⟨p, e⟩ := x
    unfold delegate
    split
    · intro v e h; cases h
    · rename_i st hst
      split
      · intro v e h; cases h
      · rename_i h
        have := enumElement_can hok h
        simp only at this
        refine ih.mono fun sub hs => ?_
        simp only [List.map_cons, flatUse]
        have hu : enumUse (env.enm e) n = .unknown := by unfold enumUse; rw [this]
        rw [hu]
        exact hs
      · rename_i act h
        have := enumElement_can hok h
        simp only at this
        refine (this.map fun r _ => ?_).mono fun sub hs => ?_
        · intro v e h
          cases r with
          | error f => cases h
          | ok r => cases h; rfl
        · simp only [List.map_cons, flatUse, hs]

theorem flatTypes_flattens (fields : List Field) (p : Nat) : (flattens fields p).map Prod.snd = flatTypes fields := by
  induction fields generalizing p with
  | nil => rfl
  | cons f fs ih =>
    unfold flattens flatTypes
    cases f.kind <;> simp [ih]

theorem elemUse_slot (fields : List Field) (n : EName) : elemUse fields n =
    match elemSlot fields n with
    | none => .unknown
    | some s => .as s.ty := by
  induction fields with
  | nil => rfl
  | cons f fs ih =>
    unfold elemUse elemSlot
    cases f.kind with
    | element s =>
      by_cases h : f.name.expanded = n
      · simp only [if_pos h]
      · simp only [if_neg h]; exact ih
    | _ => exact ih

theorem structElement_can {env : Env} (hok : EnvOk env) (i : Nat) (fs : List FState) (n : EName) :
    Can (Keeps (.strct i)) (fun sub => use env (.strct i) n = .as (tyOf sub)) (structElement env i fs n) := by
  unfold structElement
  simp only
  rcases lookup_elem (env.strct i).fields n with ⟨p, f, s, h1, h2, h3, h4⟩ | ⟨h1, h2⟩
  · simp only [h1, h2]
    have hu : use env (.strct i) n = .as s.ty := by
      simp only [use, elemUse_slot, ← h4, elemSlot_some env hok h2 h3]
    obtain ⟨nm, kind, dflt⟩ := f
    simp only at h3
    subst h3
    cases hst : fs[p]? with
    | none => intro v e h; cases h
    | some st =>
      simp only
      split
      · refine ((slotUpdate_can env s st.cell n).map (P' := Keeps (.strct i)) fun r _ => ?_).mono fun sub hs => by rw [hu, hs]
        intro v e h
        split at h <;> cases h <;> rfl
      · refine ((slotInit_can env s).map (P' := Keeps (.strct i)) fun r _ => ?_).mono fun sub hs => by rw [hu, hs]
        intro v e h
        split at h
        · cases h
        · cases h; rfl
        · rename_i w
          unfold writeCell at h
          split at h <;> cases h
          rfl
  · simp only [h1]
    refine (delegate_can hok i fs n _).mono fun sub hs => ?_
    rw [flatTypes_flattens] at hs
    simp only [use, elemUse_slot, elemSlot_none h2]
    exact hs

theorem onElem_can {env : Env} (hok : EnvOk env) (v : DState) (info : ElemInfo) :
    Can (Keeps (tyOf v)) (fun sub => use env (tyOf v) info.name.expanded = .as (tyOf sub)) ((derivedVisitor env).onElem v info) := by
  cases v with
  | strct i fs => exact structElement_can hok i fs _
  | enm i st =>
    simp only [derivedVisitor]
    split
    · intro v e h; cases h
    · intro v e h; cases h; rfl
    · rename_i act h
      have := enumElement_can hok h
      simp only at this
      refine this.map fun r _ => ?_
      intro v e h
      cases r with
      | error f => cases h
      | ok r => cases h; rfl

theorem onAttr_keeps (env : Env) {v v' : DState} {n : EName} {s : String} {e} (h : (derivedVisitor env).onAttr v n s = .ok (v', e)) :
    tyOf v' = tyOf v := by
  cases v with
  | enm i st => simp only [derivedVisitor] at h; cases h; rfl
  | strct i fs =>
    simp only [derivedVisitor, structAttribute] at h
    split at h
    · cases h
    · cases h; rfl
    · split at h
      · split at h
        · cases h; rfl
        · split at h
          · cases h
          · cases h; rfl
          · unfold writeCell at h
            split at h <;> cases h
            rfl
      · cases h

/-- With room for `r` calls besides its own, a visitor runs without overflow if its type nests at most `r + 1` deep. -/
theorem derived_bounded {env : Env} (hok : EnvOk env) : Bounded (derivedVisitor env) fun r v => ¬ Nests env (tyOf v) (r + 2) where
  attr hs h := by rw [onAttr_keeps env h]; exact hs
  chars hs h := by simp only [derivedVisitor] at h; cases h; exact hs
  done {r v info v' e} hs h := by
    have := onElem_can hok v info
    rw [h] at this
    rw [this v' e rfl]; exact hs
  text {r v info k x v' e} hs h hk := by
    have := onElem_can hok v info
    rw [h] at this
    rw [this x v' e hk]; exact hs
  room {r v info sub k} hs h := by
    have := onElem_can hok v info
    rw [h] at this
    have hu := this.1
    cases r with
    | zero =>
      refine absurd (Nests.child hu ?_) hs
      cases sub with
      | strct i fs => exact .strct i
      | enm i st => exact .enm i
    | succ r => exact ⟨r, rfl, fun hn => hs (.child hu hn)⟩
  after {r v info sub k sub' x v' e} hs h hk := by
    have := onElem_can hok v info
    rw [h] at this
    rw [this.2 sub' x v' e hk]; exact hs

theorem readTyIn_bounded {env : Env} (hok : EnvOk env) (dbg : Bool) (room : Nat) (ty : Ty) (h : ¬ Nests env ty (room + 1)) (i : Input) :
    readTyIn dbg env room ty i = some (readTy dbg env ty i) := by
  refine readIn_bounded dbg (derived_bounded hok) _ room (fun info sub k hD => ?_) i
  have := deserTy_can env ty
  rw [hD] at this
  have hty := this.1
  cases room with
  | zero =>
    refine absurd ?_ h
    rw [← hty]
    cases sub with
    | strct i fs => exact .strct i
    | enm i st => exact .enm i
  | succ r => exact ⟨r, rfl, by rw [hty]; exact h⟩

/-! ### Nested elements -/

/-- A name as the parser gives it. -/
def plainQ (n : EName) : QName := { loc := n.loc, ns := some n.ns, pfx := none }

theorem plainQ_expanded (n : EName) : (plainQ n).expanded = n := rfl

/-- Elements inside each other. -/
def nest : List EName → Forest
  | [] => .nil
  | n :: l => .elem (plainQ n) [] [] ⟨0, 0⟩ (nest l) ⟨0, 0⟩ .nil

def newTy (env : Env) : Ty → Option DState
  | .text _ => none
  | .strct i => some (newStruct env i)
  | .enm i => some (newEnum i)

/-- A fresh visitor reads a child of a declared type with a fresh visitor of that type. -/
theorem fresh_elem {env : Env} (hok : EnvOk env) {ty ty' : Ty} {n : EName} {v : DState} (hv : newTy env ty = some v)
    (hu : use env ty n = .as ty') {sub : DState} (hs : newTy env ty' = some sub) (info : ElemInfo) (hi : info.name.expanded = n) :
    ∃ k, (derivedVisitor env).onElem v info = .readTo sub k := by
  have hd : ∃ k, deserTy env ty' = .readTo sub k := by
    cases ty' with
    | text t => cases hs
    | strct i => cases hs; exact ⟨_, rfl⟩
    | enm i => cases hs; exact ⟨_, rfl⟩
  obtain ⟨k, hd⟩ := hd
  have hinit : ∀ s : Slot, s.ty = ty' → ∃ k, slotInit env s = .readTo sub k := by
    intro s h
    unfold slotInit
    rw [h, hd]
    exact ⟨_, rfl⟩
  have henum : ∀ e, enumUse (env.enm e) n = .as ty' →
      ∃ k, enumElement env e { present := false, cell := none } n = .ok (some (.readTo sub k)) := by
    intro e h
    unfold enumUse at h
    unfold enumElement
    simp only [lookup_variant env hok e n, Bool.false_eq_true, if_false]
    cases hx : variantOf (env.enm e) n with
    | none => rw [hx] at h; cases h
    | some j =>
      rw [hx] at h
      simp only at h ⊢
      cases hj : (env.enm e).variants[j]? with
      | none => rw [hj] at h; cases h
      | some w =>
        rw [hj] at h
        simp only at h ⊢
        cases hw : w.slot with
        | none => rw [hw] at h; cases h
        | some s =>
          rw [hw] at h
          simp only [Use.as.injEq] at h
          obtain ⟨k, hk⟩ := hinit s h
          simp only [hk]
          exact ⟨_, rfl⟩
  subst hi
  cases ty with
  | text t => cases hv
  | enm i =>
    cases hv
    obtain ⟨k, hk⟩ := henum i hu
    simp only [derivedVisitor, newEnum, hk]
    exact ⟨_, rfl⟩
  | strct i =>
    cases hv
    simp only [use, elemUse_slot] at hu
    simp only [derivedVisitor, newStruct, structElement]
    rcases lookup_elem (env.strct i).fields info.name.expanded with ⟨p, f, s, h1, h2, h3, h4⟩ | ⟨h1, h2⟩
    · have hslot := elemSlot_some env hok h2 h3
      rw [h4] at hslot
      simp only [hslot, Use.as.injEq] at hu
      obtain ⟨nm, kind, dflt⟩ := f
      simp only at h3
      subst h3
      obtain ⟨k, hk⟩ := hinit s hu
      simp only [h1, h2, List.getElem?_map, Option.map_some, Bool.false_eq_true, if_false, hk]
      exact ⟨_, rfl⟩
    · simp only [elemSlot_none h2] at hu
      simp only [h1]
      have key : ∀ (l : List (Nat × Nat)), (∀ x ∈ l, x ∈ flattens (env.strct i).fields 0) →
          flatUse env (l.map Prod.snd) info.name.expanded = .as ty' →
          ∃ k, delegate env i ((env.strct i).fields.map fun _ => { present := false, cell := none }) info.name.expanded l = .readTo sub k := by
        intro l
        induction l with
        | nil => intro _ h; cases h
        | cons x l ih =>
          obtain ⟨p, e⟩ := x
          intro hm h
          obtain ⟨f, -, hf, -⟩ := flattens_mem _ _ _ _ (hm (p, e) List.mem_cons_self)
          simp only [Nat.sub_zero] at hf
          unfold delegate
          simp only [List.getElem?_map, hf, Option.map_some]
          simp only [List.map_cons, flatUse] at h
          cases hx : enumUse (env.enm e) info.name.expanded with
          | unknown =>
            rw [hx] at h
            have hn : enumElement env e { present := false, cell := none } info.name.expanded = .ok none := by
              unfold enumElement
              simp only [lookup_variant env hok e, enumUse_unknown hx, Bool.false_eq_true, if_false]
            simp only [hn]
            exact ih (fun x hx => hm x (List.mem_cons_of_mem _ hx)) h
          | unit => rw [hx] at h; cases h
          | «as» t =>
            rw [hx] at h
            obtain ⟨k, hk⟩ := henum e (by rw [hx]; exact h)
            simp only [hk]
            exact ⟨_, rfl⟩
      exact key _ (fun _ h => h) (by rw [flatTypes_flattens]; exact hu)

/-- The names of a chain of nested elements, each of the type declared for it. -/
inductive Path (env : Env) : Ty → List EName → Prop where
  | strct (i : Nat) : Path env (.strct i) []
  | enm (i : Nat) : Path env (.enm i) []
  | child {ty ty' : Ty} {name : EName} {l : List EName} (h : use env ty name = .as ty') (rest : Path env ty' l) : Path env ty (name :: l)

theorem path_of_nests {env : Env} {ty : Ty} {n : Nat} (h : Nests env ty n) : ∃ l, Path env ty l ∧ l.length + 1 = n := by
  induction h with
  | strct i => exact ⟨[], .strct i, rfl⟩
  | enm i => exact ⟨[], .enm i, rfl⟩
  | child h _ ih =>
    obtain ⟨l, h1, h2⟩ := ih
    exact ⟨_ :: l, .child h h1, by simp only [List.length_cons, h2]⟩

theorem newTy_path {env : Env} {ty : Ty} {l : List EName} (h : Path env ty l) : ∃ v, newTy env ty = some v := by
  cases h with
  | strct i => exact ⟨_, rfl⟩
  | enm i => exact ⟨_, rfl⟩
  | child h _ =>
    cases ty with
    | text t => cases h
    | strct i => exact ⟨_, rfl⟩
    | enm i => exact ⟨_, rfl⟩

/-- Reading a chain of nested elements overflows a stack that has less room. -/
theorem readLoopIn_nest {env : Env} (hok : EnvOk env) (dbg : Bool) (fuel : Nat) : ∀ (room : Nat) (l : List EName) (ty : Ty) (v : DState)
    (er : ElemReader) (s : RState) (tail : List (XEvent × Pos)), Path env ty l → room < l.length → newTy env ty = some v →
    s.inner.items = (nest l).events ++ tail → s.stack.length = s.depth → er.stackPos + 1 = s.depth → l.length ≤ fuel →
    readLoopIn dbg (derivedVisitor env) fuel room er v s = none := by
  induction fuel with
  | zero => intro room l ty v er s tail _ hr _ _ _ _ hf; omega
  | succ fuel ih =>
    intro room l ty v er s tail hp hr hv hi hs hd hf
    cases hp with
    | strct i => simp at hr
    | enm i => simp at hr
    | @child _ ty' n l hu rest =>
      obtain ⟨sub, hsub⟩ := newTy_path rest
      unfold readLoopIn
      have h1 : (dbg && er.stackPos + 1 != s.stack.length) = false := by rw [hd, hs]; simp
      simp only [h1, Bool.false_eq_true, if_false]
      have h2 : next dbg s = .ok (.ok (.start [] [], ⟨0, 0⟩), { inner := { pos := ⟨0, 0⟩, items := (nest l).events ++ ((.endElement (plainQ n), ⟨0, 0⟩) :: tail), final := s.inner.final, finalPos := s.inner.finalPos }, depth := s.depth + 1, stack := s.stack ++ [{ name := plainQ n, pos := ⟨0, 0⟩ }] }) := by
        unfold next
        have h0 : (dbg && s.stack.length != s.depth) = false := by rw [hs]; simp
        simp only [h0, Bool.false_eq_true, if_false, hi, nest, Forest.events, List.cons_append, List.append_assoc, List.nil_append, nextLoop]
      simp only [h2]
      have h3 : (s.stack ++ [({ name := plainQ n, pos := ⟨0, 0⟩ } : StackElem)])[er.stackPos + 1]? = some { name := plainQ n, pos := ⟨0, 0⟩ } := by
        rw [hd, ← hs]; simp
      simp only [h3]
      obtain ⟨k, hk⟩ := fresh_elem hok hv hu hsub { name := plainQ n, ns := [], depth := er.stackPos + 1 + 1 } (plainQ_expanded n)
      simp only [hk]
      cases room with
      | zero => rfl
      | succ room =>
        simp only [visitAttrs]
        rw [ih room l ty' sub _ _ _ rest (by simpa using hr) hsub rfl (by simp [hs]) (by simp [hd]) (by simpa using hf)]

/-- The document with these elements inside each other, in a root element. -/
def nestDoc (l : List EName) : Doc where
  startPos := ⟨0, 0⟩
  prolog := []
  root := { name := plainQ ⟨"", "root"⟩, attrs := [], ns := [], pos := ⟨0, 0⟩, children := nest l, endPos := ⟨0, 0⟩ }
  epilog := []
  eofPos := ⟨0, 0⟩
  epilogOk := by simp

theorem nest_length (l : List EName) : l.length ≤ (nest l).events.length := by
  induction l with
  | nil => simp
  | cons n l ih => simp only [nest, Forest.events, List.length_cons, List.length_append]; omega

theorem readTyIn_nest {env : Env} (hok : EnvOk env) (dbg : Bool) (room : Nat) (ty : Ty) (l : List EName) (hp : Path env ty l)
    (hr : room < l.length + 1) : readTyIn dbg env room ty (nestDoc l).input = none := by
  obtain ⟨v, hv⟩ := newTy_path hp
  have hroot : root dbg (nestDoc l).input.start = .ok (.ok { ns := [], attrs := [], stackPos := 0 },
      { inner := { pos := ⟨0, 0⟩, items := (nest l).events ++ [(.endElement (plainQ ⟨"", "root"⟩), ⟨0, 0⟩)], final := .eof, finalPos := ⟨0, 0⟩ },
        depth := 1, stack := [{ name := plainQ ⟨"", "root"⟩, pos := ⟨0, 0⟩ }] }) := by
    simp only [Doc.input, nestDoc, Input.start, root, miscEvents, List.map_nil, List.nil_append, next, List.length_nil, bne_self_eq_false,
      Bool.and_false, Bool.false_eq_true, if_false, nextLoop]
  unfold readTyIn readIn
  simp only [hroot]
  have hd : ∃ k, deserTy env ty = .readTo v k := by
    cases ty with
    | text t => cases hv
    | strct i => cases hv; exact ⟨_, rfl⟩
    | enm i => cases hv; exact ⟨_, rfl⟩
  obtain ⟨k, hd⟩ := hd
  unfold runDeserIn
  simp only [List.getElem?_cons_zero, hd]
  have : readToIn dbg (derivedVisitor env) (((nest l).events ++ [(XEvent.endElement (plainQ ⟨"", "root"⟩), (⟨0, 0⟩ : Pos))]).length + 1) room
      { ns := [], attrs := [], stackPos := 0 } v
      { inner := { pos := ⟨0, 0⟩, items := (nest l).events ++ [(.endElement (plainQ ⟨"", "root"⟩), ⟨0, 0⟩)], final := .eof, finalPos := ⟨0, 0⟩ },
        depth := 1, stack := [{ name := plainQ ⟨"", "root"⟩, pos := ⟨0, 0⟩ }] } = none := by
    unfold readToIn
    cases room with
    | zero => rfl
    | succ room =>
      simp only [List.getElem?_cons_zero, visitAttrs]
      refine readLoopIn_nest hok dbg _ room l ty v _ _ _ hp (by omega) hv rfl rfl rfl ?_
      have := nest_length l
      simp only [List.length_append, List.length_cons, List.length_nil]
      omega
  rw [this]

end Stack
end SX
