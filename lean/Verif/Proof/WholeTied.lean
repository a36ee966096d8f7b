import Verif.Model.Whole

/-
The implementations of traits for all types exist, although they refer to each other, and are determined by the emitted code.
-/
namespace SX.WholeTied
open SX.Open SX.Gen

variable {c : Crate} {code : Emitted}

/-- The parts of implementations that do not refer to the code of other types. -/
structure Basic (X Y : Types) : Prop where
  new : ∀ ty, (X ty).raw.new = (Y ty).raw.new
  finalize : ∀ ty, (X ty).raw.finalize = (Y ty).raw.finalize
  out : ∀ ty, (X ty).raw.out = (Y ty).raw.out
  default : ∀ ty, (X ty).default = (Y ty).default
  attr : ∀ ty, (X ty).attr = (Y ty).attr
  missing : ∀ ty, (X ty).field.missing = (Y ty).field.missing

theorem basic_impl (X Y : Types) : Basic (c.impl code X) (c.impl code Y) where
  new _ := rfl
  finalize _ := rfl
  out _ := rfl
  default _ := rfl
  attr _ := rfl
  missing _ := rfl

variable {X Y : Types}

theorem init_eq (h : Basic X Y) (i : Nat) (l : List (String × InitExpr)) (g : GState (GEState Val) Val) :
    (c.prg code X i).init l g = (c.prg code Y i).init l g := by
  induction l generalizing g with
  | nil => rfl
  | cons a l ih =>
    obtain ⟨n, _ | ⟨ty, field⟩⟩ := a
    · exact ih _
    · unfold Prg.init
      rw [show ((c.prg code X i).types ty).raw.new = ((c.prg code Y i).types ty).raw.new from h.new ty]
      split
      · exact ih _
      · rfl

theorem new_eq (h : Basic X Y) (i : Nat) : (c.prg code X i).raw.new = (c.prg code Y i).raw.new := by
  have : (c.prg code X i).new = (c.prg code Y i).new := init_eq h i _ _
  unfold Prg.raw
  rw [this]

theorem value_eq (h : Basic X Y) (i : Nat) (v : ValExpr) : (c.prg code X i).value v = (c.prg code Y i).value v := by
  cases v with
  | default ty => unfold Prg.value; simp only [Crate.prg, h.default ty]
  | missingElement ty p => unfold Prg.value; simp only [Crate.prg, h.missing ty]
  | missingAttribute ty p => unfold Prg.value; simp only [Crate.prg, h.attr ty]

theorem runFin_eq (h : Basic X Y) (i : Nat) (g : GState (GEState Val) Val) (s : FinStmt) :
    (c.prg code X i).runFin g s = (c.prg code Y i).runFin g s := by
  cases s with
  | writeIfNot flag field value => unfold Prg.runFin; simp only [value_eq h]
  | finalize ty visitor d =>
    unfold Prg.runFin
    have : (fun d => ((c.prg code X i).types d).default) = fun d => ((c.prg code Y i).types d).default := funext h.default
    simp only [this]
    simp only [Crate.prg, h.finalize ty]

theorem finalize_eq (h : Basic X Y) (i : Nat) (l : List FinStmt) (g : GState (GEState Val) Val) :
    (c.prg code X i).finalize l g = (c.prg code Y i).finalize l g := by
  induction l generalizing g with
  | nil => rfl
  | cons s l ih =>
    unfold Prg.finalize
    rw [runFin_eq h]
    split
    · rfl
    · exact ih _
    · rfl

theorem cellOut_eq (h : Basic X Y) (i : Nat) (g : GState (GEState Val) Val) (f : String) :
    (c.prg code X i).cellOut g f = (c.prg code Y i).cellOut g f := by
  unfold Prg.cellOut
  cases get f g.mem with
  | none => rfl
  | some x =>
    cases x with
    | own cell => rfl
    | lent n =>
      simp only [Prg.visitor]
      rw [show (c.prg code X i).code = (c.prg code Y i).code from rfl]
      rcases get n (c.prg code Y i).code.defs with _ | ⟨_ | ty⟩ <;> rcases get n g.vis with _ | ⟨_ | t⟩ <;> try rfl
      exact congrFun (h.out ty) t

theorem outs_eq (h : Basic X Y) (i : Nat) (g : GState (GEState Val) Val) (l : List (String × String)) :
    (c.prg code X i).outs g l = (c.prg code Y i).outs g l := by
  induction l with
  | nil => rfl
  | cons f l ih => unfold Prg.outs; rw [cellOut_eq h, ih]

theorem finish_eq (h : Basic X Y) : c.finish code X = c.finish code Y := by
  funext st
  cases st with
  | enm i st => rfl
  | strct i g =>
    unfold Crate.finish Gen.finish
    have h1 : (c.prg code X i).raw.finalize g none = (c.prg code Y i).raw.finalize g none := finalize_eq h i _ g
    have h2 : (c.prg code X i).raw.out = (c.prg code Y i).raw.out := funext fun g => outs_eq h i g _
    simp only [h1, h2]

theorem deser_eq (h : Basic X Y) : c.deser code X = c.deser code Y := by
  funext ty
  unfold Crate.deser
  cases ty with
  | text t => rfl
  | strct i => simp only [finish_eq h, new_eq h]
  | enm i => simp only [finish_eq h]; rfl

theorem field_eq (h : Basic X Y) (ty : String) : (c.impl code X ty).field = (c.impl code Y ty).field := by
  show c.field code X _ = c.field code Y _
  unfold Crate.field
  rw [deser_eq h]

theorem typeOf_eq (h : ∀ ty, (X ty).field = (Y ty).field) (e : Nat) (v : String) :
    ((c.eprg code X e).typeOf v).map (fun x => x.field) = ((c.eprg code Y e).typeOf v).map (fun x => x.field) := by
  show Except.ok (X _).field = Except.ok (Y _).field
  rw [h]

theorem runInit_eq (h : ∀ ty, (X ty).field = (Y ty).field) (e : Nat) (st : GEState Val) (info : ElemInfo) (found : Option Nat) (v : String)
    (p : Option Val) (l : List InitArm) : (c.eprg code X e).runInit st info found v p l = (c.eprg code Y e).runInit st info found v p l := by
  induction l with
  | nil => rfl
  | cons a l ih =>
    have h1 : (c.eprg code X e).typeOf v = .ok (X (c.payloadTy e v)) := rfl
    have h2 : (c.eprg code Y e).typeOf v = .ok (Y (c.payloadTy e v)) := rfl
    unfold EPrg.runInit
    simp only [h1, h2, h, ih]
    rfl

theorem runUninit_eq (h : ∀ ty, (X ty).field = (Y ty).field) (e : Nat) (st : GEState Val) (info : ElemInfo) (i : Nat)
    (l : List UninitArm) : (c.eprg code X e).runUninit st info i l = (c.eprg code Y e).runUninit st info i l := by
  induction l with
  | nil => rfl
  | cons a l ih =>
    have h1 : (c.eprg code X e).typeOf a.variant = .ok (X (c.payloadTy e a.variant)) := rfl
    have h2 : (c.eprg code Y e).typeOf a.variant = .ok (Y (c.payloadTy e a.variant)) := rfl
    unfold EPrg.runUninit
    simp only [h1, h2, h, ih]

theorem flat_eq (h : ∀ ty, (X ty).field = (Y ty).field) (e : Nat) : c.flat code X e = c.flat code Y e := by
  have : (c.eprg code X e).raw.element = (c.eprg code Y e).raw.element := by
    funext st info
    show (c.eprg code X e).element st info = (c.eprg code Y e).element st info
    unfold EPrg.element
    simp only [runInit_eq h, runUninit_eq h]
    rfl
  unfold Crate.flat
  rw [this]
  rfl

theorem impl_thrice (X Y : Types) : c.impl code (c.impl code (c.impl code X)) = c.impl code (c.impl code (c.impl code Y)) := by
  have h1 : Basic (c.impl code X) (c.impl code Y) := basic_impl X Y
  have h2 : ∀ ty, (c.impl code (c.impl code X) ty).field = (c.impl code (c.impl code Y) ty).field := field_eq h1
  have h3 : ∀ ty, (c.impl code (c.impl code (c.impl code X)) ty).field = (c.impl code (c.impl code (c.impl code Y)) ty).field :=
    field_eq (basic_impl _ _)
  funext ty
  show TypeImpl.mk _ _ _ _ = TypeImpl.mk _ _ _ _
  congr 1
  · exact h3 ty
  · exact flat_eq h2 _

/-- Some implementations. -/
def anyTypes : Types := fun _ =>
  { field := { init := fun _ => .done .panic, update := fun v _ => .done (v, .panic), missing := fun _ => .panic }
    attr := { init := fun _ => .panic, missing := fun _ => .panic }
    raw := {
      new := { initialized := false, cell := none }
      attr := fun st _ s => .ok (st, .ok (some s))
      characters := fun st s _ => .ok (st, .ok (some s))
      element := fun st _ => .ok (.back st)
      finalize := fun st _ => .ok (st, .ok ())
      out := fun _ => none }
    default := .panic }

theorem tied_unique (c : Crate) (code : Emitted) : ∃ types, c.Tied code types ∧ ∀ types', c.Tied code types' → types' = types := by
  refine ⟨c.impl code (c.impl code (c.impl code anyTypes)), fun ty => ?_, fun types' h => ?_⟩
  · exact congrFun (impl_thrice anyTypes (c.impl code anyTypes)) ty
  · have : types' = c.impl code types' := funext h
    have h3 : types' = c.impl code (c.impl code (c.impl code types')) := by rw [← this, ← this, ← this]
    rw [h3]
    exact impl_thrice _ _

end SX.WholeTied
