import Verif.Proof.Keeps
import Verif.Proof.DeriveSafe
import Verif.Proof.Clash

/-
What derived code can read at all.
-/
namespace SX.Readability
open Spec

/-- The field that is found by its name. -/
def HeardField (env : Env) (i p : Nat) : Prop :=
  ∃ f, (env.strct i).fields[p]? = some f ∧
    match f.kind with
    | .element _ => lookup f.name.expanded (structTable (elemNames (env.strct i).fields 0)) = .ok (some p)
    | .attribute _ _ => lookup f.name.expanded (structTable (attrNames (env.strct i).fields 0)) = .ok (some p)
    | _ => False

/-- The variant that is found by its name. -/
def HeardVariant (env : Env) (i j : Nat) : Prop :=
  ∃ v, (env.enm i).variants[j]? = some v ∧ lookup v.name.expanded (enumTable (variantNames (env.enm i).variants 0)) = .ok (some j)

abbrev RV (env : Env) : Ty → Val → Prop := CanBeRead env (HeardField env) (HeardVariant env)

theorem chosen (env : Env) : OneOfEach env (HeardField env) (HeardVariant env) where
  elems i p q f g s s' hf hg hk hk' hn := by
    rintro ⟨f', h1, h2⟩ ⟨g', h3, h4⟩
    rw [hf] at h1
    rw [hg] at h3
    cases h1
    cases h3
    rw [hk] at h2
    rw [hk'] at h4
    simp only at h2 h4
    rw [hn, h4] at h2
    simpa using h2.symm
  attrs i p q f g o t o' t' hf hg hk hk' hn := by
    rintro ⟨f', h1, h2⟩ ⟨g', h3, h4⟩
    rw [hf] at h1
    rw [hg] at h3
    cases h1
    cases h3
    rw [hk] at h2
    rw [hk'] at h4
    simp only at h2 h4
    rw [hn, h4] at h2
    simpa using h2.symm
  variants i p q v w hv hw hn := by
    rintro ⟨v', h1, h2⟩ ⟨w', h3, h4⟩
    rw [hv] at h1
    rw [hw] at h3
    cases h1
    cases h3
    rw [hn, h4] at h2
    simpa using h2.symm
  skipped i p v hv := by
    rintro ⟨v', h1, h2⟩
    rw [hv] at h1
    cases h1
    obtain ⟨⟨q, nm⟩, h3, h4⟩ := List.mem_map.mp ((enumTable_perm _).mem_iff.mp (Open.lookup_named h2))
    obtain ⟨w, -, h5, h6, h7⟩ := (variantNames_mem _ _ _ _).mp h3
    simp only [Prod.mk.injEq] at h4
    obtain ⟨rfl, h4⟩ := h4
    simp only [Nat.sub_zero] at h5
    rw [hv] at h5
    cases h5
    exact h6

theorem heard_elem {env : Env} {i p : Nat} {n : EName} (h : lookup n (structTable (elemNames (env.strct i).fields 0)) = .ok (some p)) :
    ∃ f s, (env.strct i).fields[p]? = some f ∧ f.kind = .element s ∧ HeardField env i p := by
  obtain ⟨⟨q, nm⟩, h3, h4⟩ := List.mem_map.mp ((structTable_perm _).mem_iff.mp (Open.lookup_named h))
  obtain ⟨f, s, -, h5, h6, h7⟩ := (elemNames_mem _ _ _ _).mp h3
  simp only [Prod.mk.injEq] at h4
  obtain ⟨rfl, h4⟩ := h4
  simp only [Nat.sub_zero] at h5
  refine ⟨f, s, h5, h6, f, h5, ?_⟩
  rw [h6, h7, h4]
  exact h

theorem heard_attr {env : Env} {i p : Nat} {n : EName} (h : lookup n (structTable (attrNames (env.strct i).fields 0)) = .ok (some p)) :
    ∃ f o t, (env.strct i).fields[p]? = some f ∧ f.kind = .attribute o t ∧ HeardField env i p := by
  obtain ⟨⟨q, nm⟩, h3, h4⟩ := List.mem_map.mp ((structTable_perm _).mem_iff.mp (Open.lookup_named h))
  obtain ⟨f, o, t, -, h5, h6, h7⟩ := (attrNames_mem _ _ _ _).mp h3
  simp only [Prod.mk.injEq] at h4
  obtain ⟨rfl, h4⟩ := h4
  simp only [Nat.sub_zero] at h5
  refine ⟨f, o, t, h5, h6, f, h5, ?_⟩
  rw [h6, h7, h4]
  exact h

theorem heard_variant {env : Env} {i p : Nat} {n : EName} (h : lookup n (enumTable (variantNames (env.enm i).variants 0)) = .ok (some p)) :
    HeardVariant env i p := by
  obtain ⟨⟨q, nm⟩, h3, h4⟩ := List.mem_map.mp ((enumTable_perm _).mem_iff.mp (Open.lookup_named h))
  obtain ⟨w, -, h5, h6, h7⟩ := (variantNames_mem _ _ _ _).mp h3
  simp only [Prod.mk.injEq] at h4
  obtain ⟨rfl, h4⟩ := h4
  simp only [Nat.sub_zero] at h5
  refine ⟨w, h5, ?_⟩
  rw [h7, h4]
  exact h

/-! ## The invariant -/

def RSlot (env : Env) (s : Slot) (v : Val) : Prop := CardRead s.card v ∧ ∀ w ∈ valuesOf s.card v, RV env s.ty w

def REnum (env : Env) (e : Nat) (st : FState) : Prop := st.present = true → ∀ v, st.cell = some v → RV env (.enm e) v

def RField (env : Env) (i p : Nat) (f : Field) (st : FState) : Prop :=
  match f.kind with
  | .element s => st.present = true → ∀ v, st.cell = some v → HeardField env i p ∧ RSlot env s v
  | .attribute o t => st.present = true → ∀ v, st.cell = some v → HeardField env i p ∧ AttrTyped o t v
  | .flatten e => REnum env e st
  | .text _ => True

def RFields (env : Env) (i : Nat) (fs : List FState) : Prop :=
  ∀ (p : Nat) (f : Field) (st : FState), (env.strct i).fields[p]? = some f → fs[p]? = some st → RField env i p f st

def RState' (env : Env) : Ty → DState → Prop
  | .strct i, .strct j fs => j = i ∧ RFields env i fs
  | .enm i, .enm j st => j = i ∧ REnum env i st
  | _, _ => False

theorem RFields.set {env : Env} {i : Nat} {fs : List FState} (h : RFields env i fs) {p : Nat} {f : Field}
    (hp : (env.strct i).fields[p]? = some f) {st : FState} (hst : RField env i p f st) : RFields env i (fs.set p st) := by
  intro q g st' hg hst'
  by_cases hqp : p = q
  · subst hqp
    rw [hp] at hg
    cases hg
    by_cases hlt : p < fs.length
    · rw [List.getElem?_set_self hlt] at hst'
      cases hst'
      exact hst
    · rw [List.getElem?_eq_none (by simpa using hlt)] at hst'
      cases hst'
  · rw [List.getElem?_set_ne hqp] at hst'
    exact h q g st' hg hst'

theorem newStruct_ok (env : Env) (i : Nat) : RState' env (.strct i) (newStruct env i) := by
  refine ⟨rfl, ?_⟩
  intro p f st hf hst
  rw [List.getElem?_map, hf] at hst
  simp only [Option.map_some, Option.some.injEq] at hst
  subst hst
  unfold RField
  split
  · exact nofun
  · exact nofun
  · exact nofun
  · trivial

theorem newEnum_ok (env : Env) (i : Nat) : RState' env (.enm i) (newEnum i) := ⟨rfl, nofun⟩

theorem writeCell_inv {st st' : FState} {v : Val} (h : writeCell st v = .ok st') : st' = ⟨true, some v⟩ := by
  unfold writeCell at h
  split at h
  · cases h
  · cases h; rfl

/-! ## `finalize` -/

theorem finalizeField_inv {env : Env} {f : Field} {st st' : FState} {v : Val} (h : finalizeField env f st = .ok (.ok st'))
    (hv : st'.cell = some v) : (∀ t, f.kind ≠ .text t) ∧ ((st.present = true ∧ st.cell = some v) ∨ (IsAbsent f v ∧ ∀ e, f.kind ≠ .flatten e)) := by
  obtain ⟨nm, kd, df⟩ := f
  unfold finalizeField at h
  cases kd with
  | element s =>
    refine ⟨nofun, ?_⟩
    simp only at h
    cases hp : st.present with
    | true =>
      rw [hp] at h
      cases h
      exact .inl ⟨rfl, hv⟩
    | false =>
      rw [hp] at h
      simp only [Bool.false_eq_true, if_false] at h
      right
      refine ⟨?_, nofun⟩
      cases df with
      | some d =>
        simp only at h
        cases hw : writeCell st d with
        | error e => rw [hw] at h; cases h
        | ok st1 =>
          rw [hw] at h
          cases h
          rw [writeCell_inv hw] at hv
          cases hv
          exact .inl rfl
      | none =>
        simp only [slotMissing] at h
        refine .inr ⟨rfl, ?_⟩
        obtain ⟨card, ty⟩ := s
        cases card with
        | one => simp at h
        | opt =>
          simp only at h
          cases hw : writeCell st (.opt none) with
          | error e => rw [hw] at h; cases h
          | ok st1 =>
            rw [hw] at h
            cases h
            rw [writeCell_inv hw] at hv
            cases hv
            rfl
        | many =>
          simp only at h
          cases hw : writeCell st (.vec []) with
          | error e => rw [hw] at h; cases h
          | ok st1 =>
            rw [hw] at h
            cases h
            rw [writeCell_inv hw] at hv
            cases hv
            rfl
  | «attribute» o t =>
    refine ⟨nofun, ?_⟩
    simp only at h
    cases hp : st.present with
    | true =>
      rw [hp] at h
      cases h
      exact .inl ⟨rfl, hv⟩
    | false =>
      rw [hp] at h
      simp only [Bool.false_eq_true, if_false] at h
      right
      refine ⟨?_, nofun⟩
      cases df with
      | some d =>
        simp only at h
        cases hw : writeCell st d with
        | error e => rw [hw] at h; cases h
        | ok st1 =>
          rw [hw] at h
          cases h
          rw [writeCell_inv hw] at hv
          cases hv
          exact .inl rfl
      | none =>
        refine .inr ⟨rfl, ?_⟩
        cases o with
        | false => simp at h
        | true =>
          simp only [if_true] at h
          cases hw : writeCell st (.opt none) with
          | error e => rw [hw] at h; cases h
          | ok st1 =>
            rw [hw] at h
            cases h
            rw [writeCell_inv hw] at hv
            cases hv
            rfl
  | flatten e =>
    refine ⟨nofun, ?_⟩
    simp only at h
    cases hp : st.present with
    | true =>
      rw [hp] at h
      cases h
      exact .inl ⟨rfl, hv⟩
    | false =>
      rw [hp] at h
      simp at h
  | text t => cases h

theorem finalizeFields_inv {env : Env} {fields : List Field} {fs : List FState} {vs : List Val}
    (h : finalizeFields env fields fs = .ok (.ok vs)) : vs.length = fields.length ∧
      ∀ (p : Nat) f, fields[p]? = some f → ∃ st st' v, fs[p]? = some st ∧ vs[p]? = some v ∧ finalizeField env f st = .ok (.ok st') ∧ st'.cell = some v := by
  induction fields generalizing fs vs with
  | nil =>
    simp only [finalizeFields, Except.ok.injEq] at h
    subst h
    exact ⟨rfl, by simp⟩
  | cons f fields ih =>
    cases fs with
    | nil => cases h
    | cons st fs =>
      unfold finalizeFields at h
      cases h1 : finalizeField env f st with
      | error e => rw [h1] at h; cases h
      | ok x =>
        rw [h1] at h
        cases x with
        | error e => cases h
        | ok st' =>
          simp only [onOk] at h
          cases h2 : finalizeFields env fields fs with
          | error e => rw [h2] at h; cases h
          | ok y =>
            rw [h2] at h
            cases y with
            | error e => cases h
            | ok ws =>
              simp only at h
              cases h3 : st'.cell with
              | none => rw [h3] at h; cases h
              | some v =>
                rw [h3] at h
                cases h
                obtain ⟨h4, h5⟩ := ih h2
                refine ⟨by simp [h4], ?_⟩
                intro p g hg
                cases p with
                | zero =>
                  simp only [List.getElem?_cons_zero, Option.some.injEq] at hg
                  subst hg
                  exact ⟨st, st', v, rfl, rfl, h1, h3⟩
                | succ p => exact h5 p g (by simpa using hg)

theorem finalize_readable {env : Env} {ty : Ty} {st : DState} (h : RState' env ty st) {v : Val} (hf : finalize env st = .ok (.ok v)) :
    RV env ty v := by
  cases st with
  | enm i st =>
    cases ty with
    | text t => exact h.elim
    | strct j => exact h.elim
    | enm j =>
    obtain ⟨rfl, h⟩ := h
    unfold finalize at hf
    simp only at hf
    cases hp : st.present with
    | false => rw [hp] at hf; simp at hf
    | true =>
      rw [hp] at hf
      simp only [if_true] at hf
      cases hc : st.cell with
      | none => rw [hc] at hf; cases hf
      | some w =>
        rw [hc] at hf
        cases hf
        exact h hp _ hc
  | strct i fs =>
    cases ty with
    | text t => exact h.elim
    | enm j => exact h.elim
    | strct j =>
    obtain ⟨rfl, h⟩ := h
    unfold finalize at hf
    simp only at hf
    cases h1 : finalizeFields env (env.strct i).fields fs with
    | error e => rw [h1] at hf; cases hf
    | ok x =>
      rw [h1] at hf
      cases x with
      | error e => cases hf
      | ok vs =>
        cases hf
        obtain ⟨h2, h3⟩ := finalizeFields_inv h1
        have key : ∀ (p : Nat) f v, (env.strct i).fields[p]? = some f → vs[p]? = some v → ∃ st, RField env i p f st ∧
            (∀ t, f.kind ≠ .text t) ∧ ((st.present = true ∧ st.cell = some v) ∨ (IsAbsent f v ∧ ∀ e, f.kind ≠ .flatten e)) := by
          intro p f v hf hv
          obtain ⟨st, st', v', h4, h5, h6, h7⟩ := h3 p f hf
          rw [hv] at h5
          cases h5
          obtain ⟨h8, h9⟩ := finalizeField_inv h6 h7
          exact ⟨st, h p f st hf h4, h8, h9⟩
        refine .strct h2 ?_ ?_ ?_ ?_ ?_
        · intro f hf t
          obtain ⟨p, hp⟩ := List.mem_iff_getElem?.mp hf
          obtain ⟨st, st', v', h4, h5, h6, h7⟩ := h3 p f hp
          exact (finalizeField_inv h6 h7).1 t
        · intro p f o t v hf hv hk ha
          obtain ⟨st, h4, -, h5 | h5⟩ := key p f v hf hv
          · unfold RField at h4
            rw [hk] at h4
            exact h4 h5.1 v h5.2
          · exact absurd h5.1 ha
        · intro p f s v hf hv hk ha
          obtain ⟨st, h4, -, h5 | h5⟩ := key p f v hf hv
          · unfold RField at h4
            rw [hk] at h4
            obtain ⟨h6, h7⟩ := h4 h5.1 v h5.2
            exact ⟨h6, h7.1⟩
          · exact absurd h5.1 ha
        · intro p f s v w hf hv hk ha hw
          obtain ⟨st, h4, -, h5 | h5⟩ := key p f v hf hv
          · unfold RField at h4
            rw [hk] at h4
            obtain ⟨h6, h7⟩ := h4 h5.1 v h5.2
            exact h7.2 w hw
          · exact absurd h5.1 ha
        · intro p f e v hf hv hk
          obtain ⟨st, h4, -, h5 | h5⟩ := key p f v hf hv
          · unfold RField at h4
            rw [hk] at h4
            exact h4 h5.1 v h5.2
          · exact absurd hk (h5.2 e)

/-! ## Reading -/

theorem within_map {κ σ ρ ρ' : Type} {I : κ → σ → Prop} {good : ρ → Prop} {good' : ρ' → Prop} {g : ρ → ρ'}
    {a : Action σ ρ} (h : Action.Within I good a) (hg : ∀ r, good r → good' (g r)) : Action.Within I good' (a.map g) := by
  cases a with
  | done r => exact hg _ h
  | readString k => exact fun r => hg _ (h r)
  | readTo sub k =>
    obtain ⟨kind, h1, h2⟩ := h
    exact ⟨kind, h1, fun sub r hs => hg _ (h2 sub r hs)⟩

/-- Whatever `deserialize` returns is readable. -/
theorem deserTy_readable (env : Env) (hp : ∀ t s v, TextTy.parse t s = .ok v → OfType t v) (ty : Ty) :
    Action.Within (RState' env) (fun r => ∀ x, r = .ok (.ok x) → RV env ty x) (deserTy env ty) := by
  cases ty with
  | text t =>
    intro r x hx
    cases r with
    | error e => cases hx
    | ok s =>
      simp only at hx
      cases ht : t.parse s with
      | ok v =>
        rw [ht] at hx
        cases hx
        exact .text (hp t s v ht)
      | err e => rw [ht] at hx; cases hx
      | fault f => rw [ht] at hx; cases hx
  | strct i =>
    refine ⟨.strct i, newStruct_ok env i, fun sub r hs x hx => ?_⟩
    cases r with
    | error e => cases hx
    | ok u => exact finalize_readable hs hx
  | enm i =>
    refine ⟨.enm i, newEnum_ok env i, fun sub r hs x hx => ?_⟩
    cases r with
    | error e => cases hx
    | ok u => exact finalize_readable hs hx

theorem slotInit_readable (env : Env) (hp : ∀ t s v, TextTy.parse t s = .ok v → OfType t v) (s : Slot) :
    Action.Within (RState' env) (fun r => ∀ x, r = .ok (.ok x) → RSlot env s x) (slotInit env s) := by
  refine within_map (deserTy_readable env hp s.ty) ?_
  intro r hr x hx
  cases r with
  | error f => cases hx
  | ok y =>
    cases y with
    | error e => cases hx
    | ok v =>
      have h1 := hr v rfl
      obtain ⟨card, ty⟩ := s
      cases card with
      | one =>
        cases hx
        exact ⟨trivial, fun w hw => by simp only [valuesOf, List.mem_singleton] at hw; subst hw; exact h1⟩
      | opt =>
        cases hx
        exact ⟨⟨v, rfl⟩, fun w hw => by simp only [valuesOf, List.mem_singleton] at hw; subst hw; exact h1⟩
      | many =>
        cases hx
        exact ⟨⟨v, [], rfl⟩, fun w hw => by simp only [valuesOf, List.mem_singleton] at hw; subst hw; exact h1⟩

theorem slotUpdate_readable (env : Env) (hp : ∀ t s v, TextTy.parse t s = .ok v → OfType t v) (s : Slot) (c : Option Val)
    (hc : ∀ v, c = some v → RSlot env s v) (n : EName) :
    Action.Within (RState' env) (fun r => ∀ x, r = .ok (.ok x) → RSlot env s x) (slotUpdate env s c n) := by
  unfold slotUpdate
  split
  · split <;> exact nofun
  · split <;> exact nofun
  · rename_i hcard
    split
    · rename_i l
      obtain ⟨h1, h2⟩ := hc _ rfl
      refine within_map (deserTy_readable env hp s.ty) ?_
      intro r hr x hx
      cases r with
      | error f => cases hx
      | ok y =>
        cases y with
        | error e => cases hx
        | ok v =>
          cases hx
          have h3 := hr v rfl
          unfold RSlot at *
          rw [hcard] at h1 h2 ⊢
          obtain ⟨w, l', hl⟩ := h1
          cases hl
          refine ⟨⟨w, l' ++ [v], rfl⟩, fun u hu => ?_⟩
          simp only [valuesOf, List.mem_append, List.mem_singleton] at hu
          rcases hu with hu | rfl
          · exact h2 u hu
          · exact h3
    · exact nofun

theorem enumElement_readable (env : Env) (hp : ∀ t s v, TextTy.parse t s = .ok v → OfType t v) (e : Nat) (st : FState) (n : EName)
    (h : REnum env e st) (act) (hact : enumElement env e st n = .ok (some act)) :
    Action.Within (RState' env) (fun r => ∀ st' x, r = .ok (st', x) → REnum env e st') act := by
  unfold enumElement at hact
  simp only at hact
  cases hl : lookup n (enumTable (variantNames (env.enm e).variants 0)) with
  | error f => rw [hl] at hact; cases hact
  | ok found =>
    rw [hl] at hact
    simp only at hact
    cases hpr : st.present with
    | true =>
      rw [hpr] at hact
      simp only [if_true] at hact
      split at hact
      · cases hact
      · rename_i i payload hcell
        have hr := h hpr _ hcell
        split at hact
        · cases hact
        · rename_i v hv
          split at hact
          · rename_i hfi
            subst hfi
            split at hact
            · cases hact
              intro st' x hx
              cases hx
              exact h
            · rename_i s hs
              cases hact
              refine within_map (slotUpdate_readable env hp s payload ?_ n) ?_
              · rintro p rfl
                cases hr with
                | payload hv' hs' hc card items =>
                  rw [hv] at hv'
                  cases hv'
                  rw [hs] at hs'
                  cases hs'
                  exact ⟨card, items⟩
              · intro r hr' st' x hx
                split at hx
                · cases hx
                · cases hx; exact h
                · rename_i p
                  cases hx
                  intro _ v' hv'
                  cases hv'
                  obtain ⟨h1, h2⟩ := hr' p rfl
                  exact .payload hv hs (heard_variant hl) h1 h2
          · split at hact
            · cases hact
              intro st' x hx
              cases hx
              exact h
            · cases hact
              intro st' x hx
              cases hx
              exact h
      · cases hact
    | false =>
      rw [hpr] at hact
      simp only [Bool.false_eq_true, if_false] at hact
      split at hact
      · cases hact
      · rename_i i
        split at hact
        · cases hact
        · rename_i v hv
          split at hact
          · rename_i hs
            cases hact
            intro st' x hx
            cases hw : writeCell st (.enm i none) with
            | error f => rw [hw] at hx; cases hx
            | ok st1 =>
              rw [hw] at hx
              cases hx
              rw [writeCell_inv hw]
              intro _ v' hv'
              cases hv'
              exact .unit hv hs (heard_variant hl)
          · rename_i s hs
            cases hact
            refine within_map (slotInit_readable env hp s) ?_
            intro r hr' st' x hx
            split at hx
            · cases hx
            · cases hx; exact h
            · rename_i p
              cases hw : writeCell st (.enm i (some p)) with
              | error f => rw [hw] at hx; cases hx
              | ok st1 =>
                rw [hw] at hx
                cases hx
                rw [writeCell_inv hw]
                intro _ v' hv'
                cases hv'
                obtain ⟨h1, h2⟩ := hr' p rfl
                exact .payload hv hs (heard_variant hl) h1 h2

theorem delegate_readable (env : Env) (hp : ∀ t s v, TextTy.parse t s = .ok v → OfType t v) (i : Nat) (fs : List FState) (n : EName)
    (h : RFields env i fs) (l : List (Nat × Nat))
    (hl : ∀ q ∈ l, ∃ f : Field, (env.strct i).fields[q.1]? = some f ∧ f.kind = .flatten q.2) :
    Action.Within (RState' env) (fun r => ∀ v' x, r = .ok (v', x) → RState' env (.strct i) v') (delegate env i fs n l) := by
  induction l with
  | nil => intro v' x hx; cases hx; exact ⟨rfl, h⟩
  | cons q l ih =>
    obtain ⟨p, e⟩ := q
    obtain ⟨f, hf, hk⟩ := hl (p, e) List.mem_cons_self
    simp only at hf hk
    unfold delegate
    split
    · exact nofun
    · rename_i st hst
      have hg := h p f st hf hst
      unfold RField at hg
      rw [hk] at hg
      split
      · exact nofun
      · exact ih fun q hq => hl q (List.mem_cons_of_mem _ hq)
      · rename_i act hact
        refine within_map (enumElement_readable env hp e st n hg act hact) ?_
        intro r hr v' x hx
        cases r with
        | error f => cases hx
        | ok y =>
          obtain ⟨st', z⟩ := y
          cases hx
          refine ⟨rfl, h.set hf ?_⟩
          unfold RField
          rw [hk]
          exact hr _ _ rfl

theorem structElement_readable (env : Env) (hp : ∀ t s v, TextTy.parse t s = .ok v → OfType t v) (i : Nat) (fs : List FState) (n : EName)
    (h : RFields env i fs) :
    Action.Within (RState' env) (fun r => ∀ v' x, r = .ok (v', x) → RState' env (.strct i) v') (structElement env i fs n) := by
  unfold structElement
  simp only
  split
  · exact nofun
  · refine delegate_readable env hp i fs n h _ ?_
    rintro ⟨p, e⟩ hq
    obtain ⟨f, -, h1, h2⟩ := flattens_mem _ _ _ _ hq
    exact ⟨f, by simpa using h1, h2⟩
  · rename_i p hl
    obtain ⟨f, s, h1, h2, h3⟩ := heard_elem hl
    have hset : ∀ st : FState, (∀ v, st.cell = some v → RSlot env s v) → RState' env (.strct i) (.strct i (fs.set p st)) := fun st hst => by
      refine ⟨rfl, h.set h1 ?_⟩
      unfold RField
      rw [h2]
      exact fun _ v hv => ⟨h3, hst v hv⟩
    split
    · rename_i nm s' df st hf hst
      rw [h1] at hf
      cases hf
      cases h2
      have hcur := h p _ st h1 hst
      unfold RField at hcur
      simp only at hcur
      split
      · rename_i hpr
        refine within_map (slotUpdate_readable env hp s st.cell (fun v hv => (hcur hpr v hv).2) n) ?_
        intro r hr v' x hx
        split at hx
        · cases hx
        · cases hx; exact ⟨rfl, h⟩
        · rename_i v
          cases hx
          refine hset _ ?_
          intro v' hv'
          cases hv'
          exact hr v rfl
      · refine within_map (slotInit_readable env hp s) ?_
        intro r hr v' x hx
        split at hx
        · cases hx
        · cases hx; exact ⟨rfl, h⟩
        · rename_i v
          cases hw : writeCell st v with
          | error f => rw [hw] at hx; cases hx
          | ok st1 =>
            rw [hw] at hx
            cases hx
            refine hset _ ?_
            intro v' hv'
            rw [writeCell_inv hw] at hv'
            cases hv'
            exact hr v rfl
    · exact nofun

theorem structAttribute_readable (env : Env) (hp : ∀ t s v, TextTy.parse t s = .ok v → OfType t v) (i : Nat) (fs : List FState) (n : EName)
    (s : String) (h : RFields env i fs) (v' : DState) (x : Except VErr Unit) (hs : structAttribute env i fs n s = .ok (v', x)) :
    RState' env (.strct i) v' := by
  unfold structAttribute at hs
  simp only at hs
  split at hs
  · cases hs
  · cases hs; exact ⟨rfl, h⟩
  · rename_i p hl
    obtain ⟨f, o, t, h1, h2, h3⟩ := heard_attr hl
    split at hs
    · rename_i nm o' t' df st hf hst
      rw [h1] at hf
      cases hf
      cases h2
      split at hs
      · cases hs; exact ⟨rfl, h⟩
      · split at hs
        · cases hs
        · cases hs; exact ⟨rfl, h⟩
        · rename_i v hv
          cases hw : writeCell st v with
          | error f => rw [hw] at hs; cases hs
          | ok st1 =>
            rw [hw] at hs
            cases hs
            refine ⟨rfl, h.set h1 ?_⟩
            unfold RField
            intro _ v'' hv''
            rw [writeCell_inv hw] at hv''
            cases hv''
            refine ⟨h3, ?_⟩
            unfold attrInit at hv
            cases ht : t.parse s with
            | fault f => rw [ht] at hv; cases hv
            | err e => rw [ht] at hv; cases hv
            | ok tv =>
              rw [ht] at hv
              have hty := hp t s tv ht
              cases o with
              | false => cases hv; exact .inl ⟨rfl, tv, rfl, hty⟩
              | true => cases hv; exact .inr ⟨rfl, .inr ⟨tv, rfl, hty⟩⟩
    · cases hs

theorem derived_keeps (env : Env) (hp : ∀ t s v, TextTy.parse t s = .ok v → OfType t v) : Keeps (RState' env) (derivedVisitor env) where
  attr ty v n s v' r h hr := by
    cases v with
    | strct i fs =>
      cases ty with
      | text t => exact h.elim
      | enm j => exact h.elim
      | strct j =>
        obtain ⟨rfl, h⟩ := h
        exact structAttribute_readable env hp i fs n s h v' r hr
    | enm i st => cases hr; exact h
  chars ty v s p v' r h hr := by cases hr; exact h
  elem ty v info h := by
    cases v with
    | strct i fs =>
      cases ty with
      | text t => exact h.elim
      | enm j => exact h.elim
      | strct j =>
        obtain ⟨rfl, h⟩ := h
        exact structElement_readable env hp i fs _ h
    | enm i st =>
      cases ty with
      | text t => exact h.elim
      | strct j => exact h.elim
      | enm j =>
        obtain ⟨rfl, h⟩ := h
        simp only [derivedVisitor]
        split
        · exact nofun
        · intro v' x hx; cases hx; exact ⟨rfl, h⟩
        · rename_i act hact
          refine within_map (enumElement_readable env hp i st _ h act hact) ?_
          intro r hr v' x hx
          cases r with
          | error f => cases hx
          | ok y =>
            obtain ⟨st', z⟩ := y
            cases hx
            exact ⟨rfl, hr _ _ rfl⟩

theorem readTy_readable (env : Env) (hp : ∀ t s v, TextTy.parse t s = .ok v → OfType t v) {dbg : Bool} {ty : Ty} {input : Input} {v : Val}
    (h : readTy dbg env ty input = .ok (.ok v)) : RV env ty v :=
  Keeping.read_keeps dbg (derived_keeps env hp) (fun _ => deserTy_readable env hp ty) h

end SX.Readability
