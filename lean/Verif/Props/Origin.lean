import Verif.Proof.Origin
import Verif.Props.Prefix

/-
C69: the cause that an error of reading names.
-/
namespace SX
open Spec

/-- **C69.** For any implementation whose errors are its own (`own`) or given to it: an error of reading is the one of the parser, at the parser's position; or one
the crate has found itself; or one of the implementation's, with context added or as it was. -/
theorem C69_origin {σ α : Type} (dbg : Bool) (own : VErr → Prop) (V : Visitor σ) (D : Deser σ α) (M : Makes own V) (MD : DeserMakes own D) (i : Input)
    (E : Error) (h : read dbg V D i = .ok (.error E)) :
    (∃ x, i.final = .err x E.pos ∧ E.kind = .xml x) ∨ (∃ m, E.kind = .msg m) ∨ (∃ d, own (.wrap d) ∧ E.kind = .deserializer d) ∨ own (.propagate E) :=
  Origin.read_from dbg M MD i h

/-- **C69.** The cause (`source`) of an error of reading, if the implementation makes no complete errors itself: behind an error of the parser what is behind it;
the implementation's error, as it was; none for what the crate has found itself. -/
theorem C69_source {σ α : Type} (dbg : Bool) (own : VErr → Prop) (V : Visitor σ) (D : Deser σ α) (M : Makes own V) (MD : DeserMakes own D)
    (hown : ∀ E, ¬ own (.propagate E)) (i : Input) (E : Error) (h : read dbg V D i = .ok (.error E)) :
    (∃ x c, i.final = .err x E.pos ∧ Behind x c ∧ E.source = some c) ∨ ((∃ m, E.kind = .msg m) ∧ E.source = none) ∨
      ∃ d, own (.wrap d) ∧ E.source = some (.deserializer d) := by
  rcases C69_origin dbg own V D M MD i E h with ⟨x, h1, h2⟩ | ⟨m, h1⟩ | ⟨d, h1, h2⟩ | h1
  · refine .inl ⟨x, ?_⟩
    unfold Error.source
    rw [h2, ErrKind.source]
    cases hk : x.kind with
    | «syntax» => exact ⟨_, h1, .inr (.inr ⟨.inl hk, rfl⟩), rfl⟩
    | io e => exact ⟨_, h1, .inl ⟨e, hk, rfl⟩, rfl⟩
    | utf8 e => exact ⟨_, h1, .inr (.inl ⟨e, hk, rfl⟩), rfl⟩
    | unexpectedEof => exact ⟨_, h1, .inr (.inr ⟨.inr hk, rfl⟩), rfl⟩
  · exact .inr (.inl ⟨⟨m, h1⟩, by unfold Error.source; rw [h1]; rfl⟩)
  · exact .inr (.inr ⟨d, h1, by unfold Error.source; rw [h2]; rfl⟩)
  · exact absurd h1 (hown E)

/-- C69: what an implementation objects to in a document is the cause of the error that is returned (with C14). -/
theorem C69_raised {σ α : Type} (dbg : Bool) (V : Visitor σ) (D : Deser σ α) (H : dbg = false ∨ NoSwallow V ∧ DeserNoSwallow D) (P : Propagating V)
    (PD : DeserPropagating D) (d : Doc) (e : DErr) (stack : List StackElem) (pos : Pos) (h : RaisedAtRoot V D d.root ⟨.deserializer e, stack, pos⟩) :
    ∃ E, read dbg V D d.input = .ok (.error E) ∧ E.source = some (.deserializer e) ∧ E.stack = stack ∧ E.pos = pos :=
  ⟨_, C14_innermost_error_kept dbg V D H P PD d _ h, rfl, rfl, rfl⟩

/-- C69: a source of bytes that fails, anywhere in an input that can be read: the cause is what the source has reported (with C68). -/
theorem C69_io {σ α : Type} (dbg : Bool) (V : Visitor σ) (D : Deser σ α) (P : PassesOn V) (PD : DeserPassesOn D) (i : Input) (a : α)
    (h : read dbg V D i = .ok (.ok a)) (k : Nat) (msg e : String) (p fp : Pos) :
    ∃ E, read dbg V D (cutAt (i.items.take k) { msg, kind := .io e } p fp) = .ok (.error E) ∧ E.source = some (.io e) ∧ E.pos = p ∧
      E.stack = openAfter [] (i.items.take k) :=
  ⟨_, C68_readable dbg V D P PD i a h k { msg, kind := .io e } p fp, rfl, rfl, rfl⟩

namespace Origin

variable {own : VErr → Prop}

theorem makes_map {σ ρ ρ' : Type} {gives : ρ → VErr → Prop} {gives' : ρ' → VErr → Prop} (f : ρ → ρ') (hf : ∀ r e, gives' (f r) e → own e ∨ gives r e)
    {act : Action σ ρ} (h : Action.Makes own gives act) : Action.Makes own gives' (act.map f) := by
  cases act with
  | done r => exact fun e he => (hf _ _ he).elim id (h e)
  | readString k => exact fun r e he => (hf _ _ he).elim .inl (h r e)
  | readTo sub k => exact fun sub r e he => (hf _ _ he).elim .inl (h sub r e)

theorem finalizeField_makes (env : Env) (f : Field) (st : FState) (e : VErr) (h : finalizeField env f st = .ok (.error e)) : derivedOwn e := by
  have hw : ∀ v, (writeCell st v).map (Except.ok (ε := VErr)) ≠ .ok (.error e) := by
    intro v
    unfold writeCell
    split <;> simp [Except.map]
  unfold finalizeField at h
  split at h
  · split at h
    · cases h
    · split at h
      · exact absurd h (hw _)
      · split at h
        · rename_i hm
          unfold slotMissing at hm
          split at hm <;> cases hm
          cases h
          trivial
        · exact absurd h (hw _)
  · split at h
    · cases h
    · split at h
      · exact absurd h (hw _)
      · split at h
        · exact absurd h (hw _)
        · cases h; trivial
  · split at h
    · cases h
    · cases h; trivial
  · cases h

theorem finalizeFields_makes (env : Env) : ∀ (fs : List Field) (sts : List FState) (e : VErr), finalizeFields env fs sts = .ok (.error e) → derivedOwn e := by
  intro fs
  induction fs with
  | nil => intro sts e h; cases h
  | cons f fs ih =>
    intro sts e h
    cases sts with
    | nil => cases h
    | cons st sts =>
      rw [finalizeFields] at h
      cases h1 : finalizeField env f st with
      | error f => rw [h1] at h; cases h
      | ok x =>
        rw [h1] at h
        cases x with
        | error e' => cases h; exact finalizeField_makes env f st e h1
        | ok st' =>
          simp only [onOk] at h
          cases h2 : finalizeFields env fs sts with
          | error f => rw [h2] at h; cases h
          | ok x =>
            rw [h2] at h
            cases x with
            | error e' => cases h; exact ih sts e h2
            | ok vs => simp only at h; split at h <;> cases h

theorem finalize_makes (env : Env) (v : DState) (e : VErr) (h : finalize env v = .ok (.error e)) : derivedOwn e := by
  cases v with
  | strct i fs =>
    rw [finalize] at h
    cases h1 : finalizeFields env (env.strct i).fields fs with
    | error f => rw [h1] at h; cases h
    | ok x =>
      rw [h1] at h
      cases x with
      | error e' => cases h; exact finalizeFields_makes env _ _ e h1
      | ok vs => cases h
  | enm i st =>
    rw [finalize] at h
    split at h
    · split at h <;> cases h
    · cases h; trivial

theorem deserTy_makes (env : Env) (ty : Ty) : Action.Makes derivedOwn (fun r e => r = .ok (.error e)) (deserTy env ty) := by
  cases ty with
  | text t =>
    intro r e h
    cases r with
    | error e' => cases h; exact .inr rfl
    | ok s =>
      simp only at h
      split at h <;> cases h
      exact .inl trivial
  | strct i =>
    intro sub r e h
    cases r with
    | error e' => cases h; exact .inr rfl
    | ok s => exact .inl (finalize_makes env sub e h)
  | enm i =>
    intro sub r e h
    cases r with
    | error e' => cases h; exact .inr rfl
    | ok s => exact .inl (finalize_makes env sub e h)

theorem onOk_error {α β : Type} {f : α → Except Fault (Except VErr β)} {r : Except Fault (Except VErr α)} {e : VErr} (h : onOk f r = .ok (.error e)) :
    r = .ok (.error e) ∨ ∃ a, f a = .ok (.error e) := by
  cases r with
  | error g => cases h
  | ok x =>
    cases x with
    | error e' => cases h; exact .inl rfl
    | ok a => exact .inr ⟨a, h⟩

theorem slotInit_makes (env : Env) (s : Slot) : Action.Makes derivedOwn (fun r e => r = .ok (.error e)) (slotInit env s) :=
  makes_map _ (fun r e h => by rcases onOk_error h with h | ⟨a, h⟩; exact .inr h; cases h) (deserTy_makes env s.ty)

theorem slotUpdate_makes (env : Env) (s : Slot) (cell : Option Val) (n : EName) :
    Action.Makes derivedOwn (fun r e => r = .ok (.error e)) (slotUpdate env s cell n) := by
  unfold slotUpdate
  split
  · split <;> (intro e h; cases h)
    trivial
  · split <;> (intro e h; cases h)
    trivial
  · split
    · exact makes_map _ (fun r e h => by rcases onOk_error h with h | ⟨a, h⟩; exact .inr h; cases h) (deserTy_makes env s.ty)
    · intro e h; cases h

theorem writeCell_no_error {α : Type} {st : FState} {v : Val} {g : FState → α} {e : VErr} {x : α} (h : ((writeCell st v).map fun st => (g st, (.ok () : Except VErr Unit))) = .ok (x, .error e)) : False := by
  unfold writeCell at h
  split at h <;> cases h

theorem enumElement_makes (env : Env) (e : Nat) (st : FState) (n : EName) (act : Action DState (Except Fault (FState × Except VErr Unit)))
    (h : enumElement env e st n = .ok (some act)) : Action.Makes derivedOwn (fun r e => ∃ v', r = .ok (v', .error e)) act := by
  unfold enumElement at h
  simp only at h
  repeat' split at h
  all_goals first
    | (cases h; done)
    | (cases h; rintro e ⟨v', h⟩; cases h; done)
    | (cases h; rintro e ⟨v', h⟩; cases h; trivial)
    | (cases h; rintro e ⟨v', h⟩; exact (writeCell_no_error h).elim)
    | (cases h
       refine makes_map _ (fun r e ⟨v', h⟩ => ?_) (slotUpdate_makes env _ _ _)
       split at h <;> cases h
       exact .inr rfl)
    | (cases h
       refine makes_map _ (fun r e ⟨v', h⟩ => ?_) (slotInit_makes env _)
       split at h
       · cases h
       · cases h; exact .inr rfl
       · exact (writeCell_no_error h).elim)

theorem map_pair {α β : Type} {r : Except Fault (α × Except VErr Unit)} {g : α → β} {x : β} {e : VErr}
    (h : (r.map fun (a, b) => (g a, b)) = .ok (x, .error e)) : ∃ v', r = .ok (v', .error e) := by
  cases r with
  | error f => cases h
  | ok y =>
    obtain ⟨a, b⟩ := y
    cases h
    exact ⟨a, rfl⟩

theorem delegate_makes (env : Env) (i : Nat) (fs : List FState) (n : EName) (l : List (Nat × Nat)) :
    Action.Makes derivedOwn (fun r e => ∃ v', r = .ok (v', .error e)) (delegate env i fs n l) := by
  induction l with
  | nil => rintro e ⟨v', h⟩; cases h
  | cons x l ih =>
    obtain ⟨p, e⟩ := x
    rw [delegate]
    split
    · rintro e ⟨v', h⟩; cases h
    · rename_i st hst
      split
      · rintro e ⟨v', h⟩; cases h
      · exact ih
      · rename_i act hact
        exact makes_map _ (fun r e ⟨v', h⟩ => .inr (map_pair (g := fun st => DState.strct i (fs.set p st)) h)) (enumElement_makes env e _ n _ hact)

theorem structAttribute_makes (env : Env) (i : Nat) (fs : List FState) (n : EName) (value : String) (v' : DState) (e : VErr)
    (h : structAttribute env i fs n value = .ok (v', .error e)) : derivedOwn e := by
  unfold structAttribute at h
  simp only at h
  split at h
  · cases h
  · cases h
  · split at h
    · split at h
      · cases h; trivial
      · split at h
        · cases h
        · rename_i ha
          cases h
          unfold attrInit at ha
          split at ha <;> cases ha
          trivial
        · exact (writeCell_no_error h).elim
    · cases h

theorem derived_makes (env : Env) : Makes derivedOwn (derivedVisitor env) where
  attr v n s v' e h := by
    cases v with
    | strct i fs => exact structAttribute_makes env i fs n s v' e h
    | enm i st => cases h
  chars v s p v' e h := by cases h
  elem v info := by
    cases v with
    | strct i fs =>
      change Action.Makes _ _ (structElement env i fs info.name.expanded)
      unfold structElement
      simp only
      split
      · rintro e ⟨v', h⟩; cases h
      · exact delegate_makes env i fs _ _
      · split
        · split
          · refine makes_map _ (fun r e ⟨v', h⟩ => ?_) (slotUpdate_makes env _ _ _)
            split at h <;> cases h
            exact .inr rfl
          · refine makes_map _ (fun r e ⟨v', h⟩ => ?_) (slotInit_makes env _)
            split at h
            · cases h
            · cases h; exact .inr rfl
            · exact (writeCell_no_error h).elim
        · rintro e ⟨v', h⟩; cases h
    | enm i st =>
      simp only [derivedVisitor]
      split
      · rintro e ⟨v', h⟩; cases h
      · rintro e ⟨v', h⟩; cases h
      · rename_i act hact
        exact makes_map _ (fun r e ⟨v', h⟩ => .inr (map_pair h)) (enumElement_makes env i st _ _ hact)

end Origin

/-- C69 for derived types, from any input. -/
theorem C69_derived (dbg : Bool) (env : Env) (ty : Ty) (i : Input) (E : Error) (h : readTy dbg env ty i = .ok (.error E)) :
    (∃ x c, i.final = .err x E.pos ∧ Behind x c ∧ E.source = some c) ∨ ((∃ m, E.kind = .msg m) ∧ E.source = none) ∨
      ∃ d, derivedOwn (.wrap d) ∧ E.source = some (.deserializer d) :=
  C69_source dbg derivedOwn _ _ (Origin.derived_makes env) (fun _ => Origin.deserTy_makes env ty) (fun _ h => h) i E h

/-! ### Examples -/

/-- A source that fails inside `<r><skip>`: the cause is not the parser's error but what the source said. -/
example : ∃ E, read true Ex.V Ex.D (cutAt (Ex.doc.input.items.take 11) { msg := "io error", kind := .io "connection reset" } (Ex.p 99) (Ex.p 99)) = .ok (.error E) ∧
    E.source = some (.io "connection reset") ∧ E.stack.length = 2 :=
  ⟨_, rfl, rfl, rfl⟩

/-- The two defects of C44's example: the cause is the first. -/
example : ∃ E, readTy true Ex.env (.strct 0) (Ex.defDoc Ex.twoDefects).input = .ok (.error E) ∧ ∃ d, E.source = some (.deserializer d) ∧ derivedOwn (.wrap d) :=
  ⟨_, rfl, _, rfl, trivial⟩

/-- An element within text: no cause. -/
example : ∃ E, readTy true Ex.env (.text .string) (Ex.docOf [] (Ex.empt (Ex.q "x") .nil)).input = .ok (.error E) ∧ E.source = none := ⟨_, rfl, rfl⟩

/-- `Ex.V` and `Ex.D` have errors of their own only as they should. -/
example : Makes (fun e => ∃ m, e = .wrap (.user m)) Ex.V ∧ DeserMakes (fun e => ∃ m, e = .wrap (.user m)) Ex.D := by
  refine ⟨⟨fun v n s v' e h => (by cases h), fun v s p v' e h => (by cases h), fun v i => ?_⟩, fun i sub r e h => ?_⟩
  · simp only [Ex.V]
    split
    · rintro e ⟨v', h⟩; cases h
    · split
      · rintro e ⟨v', h⟩; cases h; exact ⟨_, rfl⟩
      · rintro sub r e ⟨v', h⟩
        cases r <;> cases h
        exact .inr rfl
  · cases r <;> cases h
    exact .inr rfl

example := C69_io true Ex.V Ex.D Ex.V_passes Ex.D_passes Ex.doc.input _ rfl 11 "io error" "connection reset"

end SX
