import Verif.Proof.Context
import Verif.Proof.DeriveSafe
import Verif.Props.Reader
import Verif.Props.DeriveFirst
import Verif.Props.Whole

namespace SX
open Spec Spec.Open SX.Gen Spec.Gen

/-! ## C90: the stack and position of an error are those of what was read when it happened -/

/-- **C90.** For every input (also malformed or cut), visitor and implementation that take their errors with context from reading: the stack of the error
reported has the elements that were open at the time, the position is that of the event.  Visitors may keep errors and report them later.  In a release build
errors must not be swallowed. -/
theorem C90_context {σ α : Type} (dbg : Bool) (V : Visitor σ) (D : Deser σ α) (H : dbg = true ∨ NoSwallow V ∧ DeserNoSwallow D)
    (hm : MakesNoErrors V D) (i : Input) (E : Error) (h : read dbg V D i = .ok (.error E)) : Occurred i E := by
  obtain ⟨I, hb, hD⟩ := hm (Occurred i)
  exact Context.read_context dbg H hb hD h

/-- Whoever passes on errors, and makes no others with context, makes no errors. -/
theorem C90_propagating {σ α : Type} (V : Visitor σ) (D : Deser σ α) (hV : Propagating V) (hD : DeserPropagating D) : MakesNoErrors V D := by
  refine fun P => ⟨fun _ => True, ⟨fun v n s v' r _ h => ⟨trivial, fun E hr => ?_⟩, fun _ _ _ _ _ _ _ => trivial, fun v i _ => ?_⟩, fun i => ?_⟩
  · subst hr; exact absurd h (hV.attr _ _ _ _ _)
  · have h := hV.elem v i
    cases he : V.onElem v i with
    | done r =>
      rw [he] at h
      intro v' x hr
      refine ⟨trivial, fun E hx => ?_⟩
      subst hx
      exact absurd ⟨v', hr⟩ (h E)
    | readString k =>
      rw [he] at h
      intro r hg v' x hr
      refine ⟨trivial, fun E hx => ?_⟩
      subst hx
      cases r with
      | ok s => exact absurd ⟨v', hr⟩ (h.2 s E)
      | error e =>
        obtain ⟨E', rfl, hP⟩ := hg e rfl
        obtain ⟨v'', h'⟩ := h.1 (.propagate E')
        rw [h'] at hr
        cases hr
        exact hP
    | readTo sub k =>
      rw [he] at h
      refine ⟨trivial, fun sub r _ hg v' x hr => ⟨trivial, fun E hx => ?_⟩⟩
      subst hx
      cases r with
      | ok s => exact absurd ⟨v', hr⟩ (h.2 sub s E)
      | error e =>
        obtain ⟨E', rfl, hP⟩ := hg e rfl
        obtain ⟨v'', h'⟩ := h.1 sub (.propagate E')
        rw [h'] at hr
        cases hr
        exact hP
  · have h := hD i
    cases he : D i with
    | done r =>
      rw [he] at h
      intro E hr
      exact absurd hr (h E)
    | readString k =>
      rw [he] at h
      intro r hg E hr
      cases r with
      | ok s => exact absurd hr (h.2 s E)
      | error e =>
        obtain ⟨E', rfl, hP⟩ := hg e rfl
        rw [h.1 (.propagate E')] at hr
        cases hr
        exact hP
    | readTo sub k =>
      rw [he] at h
      refine ⟨trivial, fun sub r _ hg E hr => ?_⟩
      cases r with
      | ok s => exact absurd hr (h.2 sub s E)
      | error e =>
        obtain ⟨E', rfl, hP⟩ := hg e rfl
        rw [h.1 sub (.propagate E')] at hr
        cases hr
        exact hP

namespace Context

theorem propagating_map {σ ρ ρ' : Type} {gives : ρ → VErr → Prop} {gives' : ρ' → VErr → Prop} (f : ρ → ρ') (hf : ∀ r e, gives r e → gives' (f r) e)
    (hf' : ∀ r E, gives' (f r) (.propagate E) → gives r (.propagate E))
    {act : Action σ ρ} (h : Action.Propagating gives act) : Action.Propagating gives' (act.map f) := by
  cases act with
  | done r => exact fun E hE => h E (hf' _ _ hE)
  | readString k => exact ⟨fun e => hf _ _ (h.1 e), fun s E hE => h.2 s E (hf' _ _ hE)⟩
  | readTo sub k => exact ⟨fun sub e => hf _ _ (h.1 sub e), fun sub s E hE => h.2 sub s E (hf' _ _ hE)⟩

theorem writeCell_ok {st : FState} {v : Val} {E : VErr} (h : (writeCell st v).map .ok = (.ok (.error E) : Except Fault (Except VErr FState))) : False := by
  cases hw : writeCell st v <;> rw [hw] at h <;> cases h

theorem onOk_propagate {α β : Type} {f : α → Except Fault (Except VErr β)} {r : Except Fault (Except VErr α)} {e : VErr} (hf : ∀ a, f a ≠ .ok (.error e))
    (hr : r ≠ .ok (.error e)) : onOk f r ≠ .ok (.error e) := by
  intro h
  rcases r with f' | e' | a
  · cases h
  · simp only [onOk] at h
    cases h
    exact hr rfl
  · exact hf a h

theorem finalizeField_plain (env : Env) (f : Field) (st : FState) (E : Error) : finalizeField env f st ≠ .ok (.error (.propagate E)) := by
  intro h
  unfold finalizeField at h
  split at h
  · split at h
    · cases h
    · split at h
      · exact writeCell_ok h
      · rename_i s _ _ _ _
        split at h
        · rename_i e he
          cases h
          unfold slotMissing at he
          split at he <;> cases he
        · exact writeCell_ok h
  · split at h
    · cases h
    · split at h
      · exact writeCell_ok h
      · split at h
        · exact writeCell_ok h
        · cases h
  · split at h <;> cases h
  · cases h

theorem finalizeFields_plain (env : Env) (E : Error) : ∀ (l : List Field) (sts : List FState), finalizeFields env l sts ≠ .ok (.error (.propagate E))
  | [], _ => by rw [finalizeFields]; intro h; cases h
  | _ :: _, [] => by rw [finalizeFields]; intro h; cases h
  | f :: fs, st :: sts => by
    rw [finalizeFields]
    refine onOk_propagate (fun st => onOk_propagate (fun vs => ?_) (finalizeFields_plain env E fs sts)) (finalizeField_plain env f st E)
    cases st.cell <;> (intro h; cases h)

theorem finalize_plain (env : Env) (d : DState) (E : Error) : finalize env d ≠ .ok (.error (.propagate E)) := by
  cases d with
  | strct i fs => exact onOk_propagate (fun a h => by cases h) (finalizeFields_plain env E _ _)
  | enm i st =>
    intro h
    simp only [finalize] at h
    repeat' split at h
    all_goals cases h

theorem deserTy_propagating (env : Env) (ty : Ty) : Action.Propagating (fun r e => r = .ok (.error e)) (deserTy env ty) := by
  cases ty with
  | text t =>
    refine ⟨fun e => rfl, fun s E h => ?_⟩
    dsimp only at h
    split at h <;> cases h
  | strct i => exact ⟨fun sub e => rfl, fun sub _ E h => finalize_plain env sub E h⟩
  | enm i => exact ⟨fun sub e => rfl, fun sub _ E h => finalize_plain env sub E h⟩

theorem back_onOk {α β : Type} {f : α → Except Fault (Except VErr β)} (hf : ∀ a e, f a ≠ .ok (.error e)) (r : Except Fault (Except VErr α)) (e : VErr)
    (h : onOk f r = .ok (.error e)) : r = .ok (.error e) := by
  rcases r with f' | e' | a
  · cases h
  · simp only [onOk] at h
    cases h
    rfl
  · exact absurd h (hf a e)

theorem slotInit_propagating (env : Env) (s : Slot) : Action.Propagating (fun r e => r = .ok (.error e)) (slotInit env s) :=
  propagating_map _ (fun r e h => by rw [h]; rfl) (fun r E h => back_onOk (fun a e h => by cases h) r _ h) (deserTy_propagating env s.ty)

theorem slotUpdate_propagating (env : Env) (s : Slot) (cell : Option Val) (n : EName) :
    Action.Propagating (fun r e => r = .ok (.error e)) (slotUpdate env s cell n) := by
  unfold slotUpdate
  split
  · split <;> (intro E h; cases h)
  · split <;> (intro E h; cases h)
  · split
    · exact propagating_map _ (fun r e h => by rw [h]; rfl) (fun r E h => back_onOk (fun a e h => by cases h) r _ h) (deserTy_propagating env s.ty)
    · intro E h; cases h

/-- What `update` and `init` of the generated code make of the result of a child. -/
theorem propagating_store {τ : Type} (st : τ) {act : Action DState (Except Fault (Except VErr Val))}
    {f : Except Fault (Except VErr Val) → Except Fault (τ × Except VErr Unit)} (h : Action.Propagating (fun r e => r = .ok (.error e)) act)
    (h1 : ∀ x, f (.error x) = .error x) (h2 : ∀ e, f (.ok (.error e)) = .ok (st, .error e)) (h3 : ∀ v st' e, f (.ok (.ok v)) ≠ .ok (st', .error e)) :
    Action.Propagating (fun r e => ∃ v', r = .ok (v', .error e)) (act.map f) := by
  refine propagating_map _ (fun r e h => ⟨st, by rw [h, h2]⟩) (fun r E h => ?_) h
  obtain ⟨v', h⟩ := h
  rcases r with f' | e' | a
  · rw [h1] at h; cases h
  · rw [h2] at h; cases h; rfl
  · exact absurd h (h3 a v' _)

theorem write_plain {τ : Type} {st : FState} {v : Val} {g : FState → τ} (st' : τ) (e : VErr) :
    (writeCell st v).map (fun st => (g st, (.ok () : Except VErr Unit))) ≠ .ok (st', .error e) := by
  intro h
  cases hw : writeCell st v <;> rw [hw] at h <;> cases h

theorem enumElement_propagating (env : Env) (e : Nat) (st : FState) (n : EName) (act : Action DState (Except Fault (FState × Except VErr Unit)))
    (h : enumElement env e st n = .ok (some act)) : Action.Propagating (fun r e => ∃ v', r = .ok (v', .error e)) act := by
  unfold enumElement at h
  simp only at h
  repeat' split at h
  all_goals first
    | cases h; done
    | cases h; exact fun E ⟨v', h⟩ => by cases h
    | cases h; exact fun E ⟨v', h⟩ => write_plain (g := fun st => st) v' _ h
    | cases h; exact propagating_store st (slotUpdate_propagating env _ _ _) (fun _ => rfl) (fun _ => rfl) (fun v st' e h => by cases h)
    | cases h; exact propagating_store st (slotInit_propagating env _) (fun _ => rfl) (fun _ => rfl) (fun v st' e h => write_plain (g := fun st => st) st' _ h)

theorem propagating_into {τ : Type} (g : FState → τ) {act : Action DState (Except Fault (FState × Except VErr Unit))}
    (h : Action.Propagating (fun r e => ∃ v', r = .ok (v', .error e)) act) (f : Except Fault (FState × Except VErr Unit) → Except Fault (τ × Except VErr Unit))
    (hf : ∀ r, f r = r.map fun (st, r) => (g st, r)) :
    Action.Propagating (fun r e => ∃ v', r = .ok (v', .error e)) (act.map f) := by
  refine propagating_map _ (fun r e ⟨v', h⟩ => ⟨g v', by rw [hf, h]; rfl⟩) (fun r E ⟨v', h⟩ => ?_) h
  rw [hf] at h
  rcases r with f' | ⟨st, x⟩
  · cases h
  · simp only [Except.map, Except.ok.injEq, Prod.mk.injEq] at h
    exact ⟨st, by rw [h.2]⟩

theorem delegate_propagating (env : Env) (i : Nat) (fs : List FState) (n : EName) (l : List (Nat × Nat)) :
    Action.Propagating (fun r e => ∃ v', r = .ok (v', .error e)) (delegate env i fs n l) := by
  induction l with
  | nil => exact fun E ⟨v', h⟩ => by cases h
  | cons x l ih =>
    obtain ⟨p, e⟩ := x
    rw [delegate]
    split
    · exact fun E ⟨v', h⟩ => by cases h
    · rename_i st hst
      split
      · exact fun E ⟨v', h⟩ => by cases h
      · exact ih
      · rename_i act hact
        exact propagating_into (fun st => .strct i (fs.set p st)) (enumElement_propagating env e _ n _ hact) _ (fun r => rfl)

theorem structAttribute_plain (env : Env) (i : Nat) (fs : List FState) (n : EName) (s : String) (v' : DState) (E : Error) :
    structAttribute env i fs n s ≠ .ok (v', .error (.propagate E)) := by
  intro h
  unfold structAttribute at h
  simp only at h
  split at h
  · cases h
  · cases h
  · split at h
    · split at h
      · cases h
      · split at h
        · cases h
        · rename_i e he
          cases h
          unfold attrInit at he
          split at he <;> cases he
        · exact write_plain (g := fun st => DState.strct i (fs.set _ st)) v' _ h
    · cases h

/-- Derived visitors pass on the errors of children unchanged; their own errors are plain. -/
theorem derived_propagating (env : Env) : Propagating (derivedVisitor env) where
  attr v n s v' E h := by
    cases v with
    | strct i fs => exact structAttribute_plain env i fs n s v' E h
    | enm i st => cases h
  elem v info := by
    cases v with
    | strct i fs =>
      change Action.Propagating _ (structElement env i fs info.name.expanded)
      unfold structElement
      simp only
      split
      · exact fun E ⟨v', h⟩ => by cases h
      · exact delegate_propagating env i fs _ _
      · split
        · split
          · exact propagating_store (.strct i fs) (slotUpdate_propagating env _ _ _) (fun _ => rfl) (fun _ => rfl) (fun v st' e h => by cases h)
          · exact propagating_store (.strct i fs) (slotInit_propagating env _) (fun _ => rfl) (fun _ => rfl)
              (fun v st' e h => write_plain (g := fun st => DState.strct i (fs.set _ st)) st' _ h)
        · exact fun E ⟨v', h⟩ => by cases h
    | enm i st =>
      simp only [derivedVisitor]
      split
      · exact fun E ⟨v', h⟩ => by cases h
      · exact fun E ⟨v', h⟩ => by cases h
      · rename_i act hact
        exact propagating_into (fun st => .enm i st) (enumElement_propagating env i st _ _ hact) _ (fun r => rfl)

end Context

/-- C90 for derived types: in all builds, for all sets of types and all inputs. -/
theorem C90_derived (dbg : Bool) (env : Env) (ty : Ty) (i : Input) (E : Error) (h : readTy dbg env ty i = .ok (.error E)) : Occurred i E :=
  C90_context dbg _ _ (.inr ⟨derived_noSwallow env, deserTy_deserNoSwallow env ty⟩)
    (C90_propagating _ _ (Context.derived_propagating env) (fun _ => Context.deserTy_propagating env ty)) i E h

/-- C90 for the emitted code of a crate. -/
theorem C90_crate (c : Crate) (code : Emitted) (types : Types) (env : Env) (ha : Accepted c code) (hu : Unskipped c) (hd : DeclaresTypes c env)
    (ht : c.Tied code types) (dbg : Bool) (ty : Ty) (i : Input) (E : Error) (h : c.read code types dbg ty i = .ok (.error E)) : Occurred i E := by
  have h' := C65_read c code types env ha hu hd ht dbg ty i
  rw [h] at h'
  refine C90_derived dbg env ty i E ?_
  cases hr : readTy dbg env ty i with
  | error f => rw [hr] at h'; simp [someOk] at h'
  | ok x => rw [hr] at h'; simp only [someOk, Option.some.injEq] at h'; rw [h']

/-! ### Release builds, and examples -/

namespace ExCtx
open Ex (q p)

/-- Does not like `b`, after having read it; forgives errors within `a`. -/
def V : Visitor Unit where
  onAttr v _ _ := .ok (v, .ok ())
  onChars v _ _ := .ok (v, .ok ())
  onElem _ i := .readTo () fun _ r =>
    match r with
    | .ok _ => .ok ((), if i.name.loc = "b" then .error (.wrap (.user "no")) else .ok ())
    | .error e => .ok ((), if i.name.loc = "a" then .ok () else .error e)

def D : Deser Unit Unit := fun _ => .readTo () fun _ r =>
  match r with
  | .ok _ => .ok (.ok ())
  | .error e => .ok (.error e)

theorem makes : MakesNoErrors V D := by
  refine fun P => ⟨fun _ => True, ⟨fun v n s v' r _ h => ?_, fun _ _ _ _ _ _ _ => trivial, fun v i _ => ⟨trivial, fun sub r _ hg v' x hr => ⟨trivial, fun E hx => ?_⟩⟩⟩,
    fun i => ⟨trivial, fun sub r _ hg E hr => ?_⟩⟩
  · cases h; exact ⟨trivial, fun E h => by cases h⟩
  · subst hx
    cases r with
    | ok _ =>
      dsimp only at hr
      split at hr <;> cases hr
    | error e =>
      obtain ⟨E', rfl, hP⟩ := hg e rfl
      dsimp only at hr
      split at hr <;> cases hr
      exact hP
  · cases r with
    | ok _ => cases hr
    | error e =>
      obtain ⟨E', rfl, hP⟩ := hg e rfl
      cases hr
      exact hP

/-- `<r><a><b/><c>`, then an error of the parser. -/
def cut : Input where
  items := [(.startDocument, p 0), (.startElement (q "r") [] [], p 1), (.startElement (q "a") [] [], p 2), (.startElement (q "b") [] [], p 3), (.endElement (q "b"), p 4),
    (.startElement (q "c") [] [], p 5)]
  final := .err "eof" (p 6)
  finalPos := p 6

/-- Refuses attributes; keeps the error of `a` for later. -/
def later : Visitor (Option VErr) where
  onAttr v _ _ := .ok (v, .error (.wrap (.user "no")))
  onChars v _ _ := .ok (v, .ok ())
  onElem v i := .readTo none fun _ r =>
    match r with
    | .ok _ => .ok (v, .ok ())
    | .error e => if i.name.loc = "a" then .ok (some e, .ok ()) else .ok (v, .error e)

def laterD : Deser (Option VErr) Unit := fun _ => .readTo none fun v r =>
  match r, v with
  | .error e, _ => .ok (.error e)
  | .ok _, some e => .ok (.error e)
  | .ok _, none => .ok (.ok ())

theorem later_makes : MakesNoErrors later laterD := by
  refine fun P => ⟨fun v => ∀ E, v = some (.propagate E) → P E, ⟨fun v n s v' r hv h => ?_, fun _ _ _ _ _ hv h => ?_,
    fun v i hv => ⟨(fun E h => by cases h), fun sub r _ hg v' x hr => ?_⟩⟩, fun i => ⟨(fun E h => by cases h), fun sub r hs hg E hr => ?_⟩⟩
  · cases h; exact ⟨hv, fun E h => by cases h⟩
  · cases h; exact hv
  · cases r with
    | ok _ => cases hr; exact ⟨hv, fun E h => by cases h⟩
    | error e =>
      obtain ⟨E', rfl, hP⟩ := hg e rfl
      dsimp only at hr
      split at hr <;> cases hr
      · exact ⟨(fun E h => by cases h; exact hP), fun E h => by cases h⟩
      · exact ⟨hv, fun E h => by cases h; exact hP⟩
  · cases r with
    | error e =>
      obtain ⟨E', rfl, hP⟩ := hg e rfl
      cases hr
      exact hP
    | ok _ =>
      cases sub with
      | none => cases hr
      | some e => cases hr; exact hs E rfl

/-- `<r><a x="1">t</a><c/></r>` -/
def whole : Input where
  items := [(.startDocument, p 0), (.startElement (q "r") [] [], p 1), (.startElement (q "a") [⟨q "x", "1"⟩] [], p 2), (.characters "t", p 3), (.endElement (q "a"), p 4),
    (.startElement (q "c") [] [], p 5), (.endElement (q "c"), p 6), (.endElement (q "r"), p 7)]
  final := .eof
  finalPos := p 8

end ExCtx

/-- C90 needs that errors are not swallowed in release builds.  Within `a` the error of `b` is forgiven after `b` ended; what is left in `a` is skipped, but the
ended `b` is still on the stack, so that the error of the parser within `c` is reported as one within `b`.  In debug builds this panics (C10). -/
theorem C90_release_counterexample :
    ∃ (V : Visitor Unit) (D : Deser Unit Unit) (i : Input) (E : Error), MakesNoErrors V D ∧ read false V D i = .ok (.error E) ∧ ¬ Occurred i E ∧
      E.stack.map (fun x => x.name.loc) = ["r", "a", "b"] ∧ (openedBy i.items).map (fun x => x.name.loc) = ["r", "a", "c"] ∧ read true V D i = .error .panic := by
  refine ⟨ExCtx.V, ExCtx.D, ExCtx.cut, ⟨.xml "eof", [⟨Ex.q "r", Ex.p 1⟩, ⟨Ex.q "a", Ex.p 2⟩, ⟨Ex.q "b", Ex.p 3⟩], Ex.p 6⟩, ExCtx.makes, rfl, fun h => ?_, rfl, rfl, rfl⟩
  generalize he : Error.mk _ _ _ = E at h
  cases h with
  | parser h => cases h; simp [openedBy, opened, ExCtx.cut, Ex.q] at he
  | _ => cases he

/-- An error that is kept and reported at the end has the elements of when it happened. -/
example : MakesNoErrors ExCtx.later ExCtx.laterD ∧ read true ExCtx.later ExCtx.laterD ExCtx.whole =
      .ok (.error ⟨.deserializer (.user "no"), [⟨Ex.q "r", Ex.p 1⟩, ⟨Ex.q "a", Ex.p 2⟩], Ex.p 2⟩) ∧
    Occurred ExCtx.whole ⟨.deserializer (.user "no"), [⟨Ex.q "r", Ex.p 1⟩, ⟨Ex.q "a", Ex.p 2⟩], Ex.p 2⟩ :=
  ⟨ExCtx.later_makes, rfl, C90_context true _ _ (.inl rfl) ExCtx.later_makes _ _ rfl⟩

example : Propagating Ex.V ∧ DeserPropagating Ex.D := ⟨Ex.V_propagating, Ex.D_propagating⟩

/-- The document with two defects of C44, and its first events only. -/
example : ∃ E E', readTy true Ex.env (.strct 0) (Ex.defDoc Ex.twoDefects).input = .ok (.error E) ∧
    readTy true Ex.env (.strct 0) { (Ex.defDoc Ex.twoDefects).input with items := (Ex.defDoc Ex.twoDefects).input.items.take 3, final := .err "eof" (Ex.p 9) } = .ok (.error E') ∧
    E.stack ≠ [] ∧ E'.stack ≠ [] := ⟨_, _, rfl, rfl, by decide, by decide⟩

example (types : Types) (ht : ExCrate.crate.Tied ExCrate.code types) :=
  C90_crate ExCrate.crate ExCrate.code types ExCrate.env ExCrate.accepted ExCrate.unskipped ExCrate.declares ht true (.strct 0) ExCrate.doc.input

end SX
