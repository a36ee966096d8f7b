import Verif.Proof.Space
import Verif.Proof.Normalize

/- Derived types hold at most what has been read, and what their fields take without it. -/
namespace SX.Space
open Spec.Space

theorem body_length (l : List UInt8) : (body l).length ≤ l.length := by
  induction h : l.length using Nat.strongRecOn generalizing l with
  | ind n ih =>
    cases l with
    | nil => simp [body]
    | cons b r =>
      have hd := (List.dropWhile_suffix (l := r) isWsByte).length_le
      simp only [List.length_cons] at h
      rw [body]
      split
      · have := ih (r.dropWhile isWsByte).length (by omega) _ rfl
        simp only [List.length_cons]
        omega
      · have := ih r.length (by omega) _ rfl
        simp only [List.length_cons]
        omega

theorem normalize_size (s t : String) (ws : WhiteSpace) (h : normalize s ws = .ok t) : t.utf8ByteSize ≤ s.utf8ByteSize := by
  have hb : ∀ b, normalizeBytes s.toByteArray.data.toList ws = some b → b.length ≤ s.utf8ByteSize := by
    intro b hb
    have hs : s.toByteArray.data.toList.length = s.utf8ByteSize := by simp
    cases ws with
    | preserve =>
      simp only [normalizeBytes, Option.some.injEq] at hb
      subst hb
      omega
    | replace =>
      rw [normalizeBytes_replace] at hb
      cases hb
      simp only [List.length_map]
      omega
    | collapse =>
      obtain ⟨e, -, -, -, h⟩ := normalizeBytes_collapse s.toByteArray.data.toList
      rw [h] at hb
      cases hb
      have h1 := body_length ((s.toByteArray.data.toList.take e).dropWhile isWsByte)
      have h2 := (List.dropWhile_suffix (l := s.toByteArray.data.toList.take e) isWsByte).length_le
      have h3 : (s.toByteArray.data.toList.take e).length ≤ s.toByteArray.data.toList.length := by rw [List.length_take]; omega
      omega
  simp only [normalize] at h
  revert h
  cases hq : normalizeBytes s.toByteArray.data.toList ws with
  | none => intro h; cases h
  | some b =>
    dsimp only
    cases hu : String.fromUTF8? (ByteArray.mk b.toArray) with
    | none => intro h; cases h
    | some x =>
      intro h
      cases h
      have := hb b hq
      have h2 : t.toByteArray = ByteArray.mk b.toArray := by
        simp only [String.fromUTF8?] at hu
        split at hu
        · cases hu; rfl
        · cases hu
      have h3 : t.utf8ByteSize = b.length := by
        rw [show t.utf8ByteSize = t.toByteArray.size from rfl, h2]
        simp [ByteArray.size]
      omega

mutual
theorem parse_held (t : TextTy) (s : String) (v : TVal) (h : t.parse s = .ok v) : held v ≤ s.utf8ByteSize := by
  cases t with
  | bool =>
    simp only [TextTy.parse, parseBool] at h
    revert h
    split <;> (intro h; cases h <;> simp [held])
  | int t =>
    simp only [TextTy.parse, parseInt] at h
    revert h
    split <;> (intro h; cases h <;> simp [held])
  | float f g =>
    simp only [TextTy.parse] at h
    revert h
    split <;> (intro h; cases h <;> simp [held])
  | string => cases h; exact Nat.le_refl _
  | std ws f g =>
    simp only [TextTy.parse] at h
    revert h
    cases normalize s ws with
    | error f => intro h; cases h
    | ok x =>
      simp only [Res.ofExcept, Res.bind]
      split <;> (intro h; cases h <;> simp [held])
  | restriction name ws vs =>
    simp only [TextTy.parse, parseRestriction] at h
    revert h
    cases hn : normalize s ws with
    | error f => intro h; cases h
    | ok x =>
      intro h
      replace h : (match matchKnown x vs 0 with
        | some i => Res.ok (.known i)
        | none => if vs.contains none then .ok (.unknown x) else .err (TErr.noSuchVariant name x)) = Res.ok v := h
      revert h
      split
      · intro h; cases h; simp [held]
      · split
        · intro h; cases h; exact normalize_size _ _ _ hn
        · intro h; cases h
  | union name ws vs =>
    simp only [TextTy.parse] at h
    revert h
    cases hn : normalize s ws with
    | error f => intro h; cases h
    | ok x =>
      intro h
      have h1 := parseVariants_held vs name x 0 [] v h
      have h2 := normalize_size _ _ _ hn
      omega
theorem parseVariants_held (l : List TextTy) (name s : String) (i : Nat) (es : List TErr) (v : TVal) (h : TextTy.parseVariants l name s i es = .ok v) :
    held v ≤ s.utf8ByteSize := by
  cases l with
  | nil => cases h
  | cons t l =>
    simp only [TextTy.parseVariants] at h
    revert h
    cases hp : t.parse s with
    | ok r => intro h; cases h; exact parse_held t s r hp
    | err e => intro h; exact parseVariants_held l name s (i + 1) _ v h
    | fault f => intro h; cases h
end

theorem sizes_append (l l' : List Val) : sizes (l ++ l') = sizes l + sizes l' := by
  induction l with
  | nil => simp [sizes]
  | cons v l ih => simp only [List.cons_append, sizes, ih]; omega

/-- What a field's memory holds. -/
def cellHeld (absent : Nat) (st : FState) : Nat := (st.cell.map size).getD absent

theorem sum_set (absent : Nat) (fs : List FState) (p : Nat) (st st' : FState) (h : fs[p]? = some st) :
    ((fs.set p st').map (cellHeld absent)).sum + cellHeld absent st = (fs.map (cellHeld absent)).sum + cellHeld absent st' := by
  induction fs generalizing p with
  | nil => simp at h
  | cons x fs ih =>
    cases p with
    | zero =>
      simp only [List.getElem?_cons_zero, Option.some.injEq] at h
      subst h
      simp only [List.set_cons_zero, List.map_cons, List.sum_cons]
      omega
    | succ p =>
      simp only [List.getElem?_cons_succ] at h
      have := ih p h
      simp only [List.set_cons_succ, List.map_cons, List.sum_cons]
      omega

theorem writeCell_held {absent : Nat} {st st' : FState} {v : Val} (h : writeCell st v = .ok st') : cellHeld absent st = absent ∧ cellHeld absent st' = size v := by
  simp only [writeCell] at h
  revert h
  split
  · intro h; cases h
  · intro h
    cases h
    rename_i hc
    exact ⟨by simp [cellHeld, hc], rfl⟩

/-- Where values may be: two at least, and the defaults of fields. -/
structure Roomy (env : Env) (absent each : Nat) : Prop where
  two : 2 ≤ absent
  default : ∀ i, ∀ f ∈ (env.strct i).fields, ∀ d, f.default = some d → size d ≤ absent
  strct : ∀ i, 1 + (env.strct i).fields.length * absent ≤ each
  enm : absent ≤ each

variable {env : Env} {absent each : Nat}

theorem finalizeField_held (h2 : 2 ≤ absent) (f : Field) (hd : ∀ d, f.default = some d → size d ≤ absent) (st st' : FState)
    (h : finalizeField env f st = .ok (.ok st')) : cellHeld absent st' ≤ cellHeld absent st := by
  have wr : ∀ v, size v ≤ absent → (writeCell st v).map Except.ok = .ok (Except.ok (ε := VErr) st') → cellHeld absent st' ≤ cellHeld absent st := by
    intro v hv h
    cases hw : writeCell st v with
    | error f => rw [hw] at h; cases h
    | ok x =>
      rw [hw] at h
      cases h
      obtain ⟨h1, h2⟩ := writeCell_held (absent := absent) hw
      omega
  have same : ∀ {ε} , (Except.ok (Except.ok st) : Except Fault (Except ε FState)) = .ok (.ok st') → cellHeld absent st' ≤ cellHeld absent st := by
    intro ε h; cases h; exact Nat.le_refl _
  simp only [finalizeField] at h
  revert h
  cases f.kind with
  | element s =>
    dsimp only
    split
    · exact same
    · cases hf : f.default with
      | some d => exact wr d (hd d hf)
      | none =>
        dsimp only [slotMissing]
        cases s.card with
        | one => intro h; cases h
        | opt => exact wr _ (by simp only [size]; omega)
        | many => exact wr _ (by simp only [size, sizes]; omega)
  | «attribute» o t =>
    dsimp only
    split
    · exact same
    · cases hf : f.default with
      | some d => exact wr d (hd d hf)
      | none =>
        dsimp only
        split
        · exact wr _ (by simp only [size]; omega)
        · intro h; cases h
  | flatten e =>
    dsimp only
    split
    · exact same
    · intro h; cases h
  | text t => intro h; cases h

theorem finalizeFields_held (h2 : 2 ≤ absent) (fields : List Field) (hd : ∀ f ∈ fields, ∀ d, f.default = some d → size d ≤ absent) (fs : List FState) (vs : List Val)
    (h : finalizeFields env fields fs = .ok (.ok vs)) : sizes vs ≤ (fs.map (cellHeld absent)).sum := by
  induction fields generalizing fs vs with
  | nil => cases h; simp [sizes]
  | cons f fields ih =>
    cases fs with
    | nil => cases h
    | cons st fs =>
      simp only [finalizeFields] at h
      revert h
      cases hq : finalizeField env f st with
      | error f => intro h; cases h
      | ok q =>
        cases q with
        | error e => intro h; cases h
        | ok st' =>
          simp only [onOk]
          cases hz : finalizeFields env fields fs with
          | error f => intro h; cases h
          | ok z =>
            cases z with
            | error e => intro h; cases h
            | ok z =>
              dsimp only
              cases hc : st'.cell with
              | none => intro h; cases h
              | some v =>
                intro h
                cases h
                have h3 := finalizeField_held h2 f (fun d => hd f (.head _) d) st st' hq
                have h4 := ih (fun f hf => hd f (.tail _ hf)) fs z hz
                simp only [cellHeld, hc, Option.map_some, Option.getD_some] at h3
                simp only [sizes, List.map_cons, List.sum_cons]
                simp only [cellHeld] at h3 h4 ⊢
                omega

theorem finalize_held (hr : Roomy env absent each) (s : DState) (v : Val) (h : finalize env s = .ok (.ok v)) : size v ≤ heldState absent s := by
  cases s with
  | strct i fs =>
    simp only [finalize] at h
    revert h
    cases hq : finalizeFields env (env.strct i).fields fs with
    | error f => intro h; cases h
    | ok q =>
      cases q with
      | error e => intro h; cases h
      | ok vs =>
        intro h
        cases h
        have := finalizeFields_held hr.two _ (hr.default i) fs vs hq
        simp only [size, heldState]
        exact Nat.add_le_add_left this 1
  | enm i st =>
    simp only [finalize] at h
    revert h
    split
    · cases hc : st.cell with
      | none => intro h; cases h
      | some x => intro h; cases h; simp [heldState, hc]
    · intro h; cases h

/-- What becomes of an action: if its result is a value, then with at most `more` in addition to what was read. -/
def Adds {ρ : Type} (absent each : Nat) (act : Action DState ρ) (hold : ρ → Nat → Prop) : Prop :=
  match act with
  | .done r => hold r 0
  | .readString k => (∀ e, hold (k (.error e)) 0) ∧ ∀ x, hold (k (.ok x)) (each + x.utf8ByteSize)
  | .readTo sub k => heldState absent sub ≤ each ∧ ∀ sub' r, hold (k sub' r) (heldState absent sub')

theorem Adds.map {ρ ρ' : Type} {act : Action DState ρ} {hold : ρ → Nat → Prop} {hold' : ρ' → Nat → Prop} {f : ρ → ρ'} (h : Adds absent each act hold)
    (hf : ∀ r n, hold r n → hold' (f r) n) : Adds absent each (act.map f) hold' := by
  cases act with
  | done r => exact hf _ _ h
  | readString k => exact ⟨fun e => hf _ _ (h.1 e), fun x => hf _ _ (h.2 x)⟩
  | readTo sub k => exact ⟨h.1, fun sub' r => hf _ _ (h.2 sub' r)⟩

/-- A value has at most this size. -/
def AtMost (r : Except Fault (Except VErr Val)) (n : Nat) : Prop := ∀ v, r = .ok (.ok v) → size v ≤ n

theorem deserTy_held (hr : Roomy env absent each) (ty : Ty) : Adds absent each (deserTy env ty) AtMost := by
  have he : 1 ≤ each := by have := hr.two; have := hr.enm; omega
  cases ty with
  | text t =>
    refine ⟨(fun e v h => by cases h), fun x v h => ?_⟩
    revert h
    dsimp only
    cases hp : t.parse x with
    | ok y => intro h; cases h; have := parse_held t x y hp; simp only [size]; omega
    | err e => intro h; cases h
    | fault f => intro h; cases h
  | strct i =>
    refine ⟨?_, ?_⟩
    · have := hr.strct i
      simp only [newStruct, heldState, List.map_map]
      have hs : ∀ l : List Field, (l.map ((fun st : FState => (st.cell.map size).getD absent) ∘ fun _ => { present := false, cell := none })).sum = l.length * absent := by
        intro l
        induction l with
        | nil => simp
        | cons x l ih => simp only [List.map_cons, List.sum_cons, ih, List.length_cons, Nat.add_mul]; simp; omega
      rw [hs]
      exact this
    · intro sub' r v h
      cases r with
      | error e => cases h
      | ok x => exact finalize_held hr _ _ h
  | enm i =>
    refine ⟨hr.enm, ?_⟩
    intro sub' r v h
    cases r with
    | error e => cases h
    | ok x => exact finalize_held hr _ _ h

theorem onOk_ok {α β : Type} {f : α → Except Fault (Except VErr β)} {r : Except Fault (Except VErr α)} {b : β} (h : onOk f r = .ok (.ok b)) :
    ∃ a, r = .ok (.ok a) ∧ f a = .ok (.ok b) := by
  cases r with
  | error f => cases h
  | ok r =>
    cases r with
    | error e => cases h
    | ok a => exact ⟨a, rfl, h⟩

theorem slotInit_held (hr : Roomy env absent each) (s : Slot) : Adds absent each (slotInit env s) fun r n => ∀ v, r = .ok (.ok v) → size v ≤ n + 1 := by
  refine (deserTy_held hr s.ty).map ?_
  intro r n h v hv
  obtain ⟨a, ha, hv⟩ := onOk_ok hv
  have := h a ha
  cases hc : s.card <;> (rw [hc] at hv; cases hv; simp only [size, sizes]; omega)

theorem slotUpdate_held (hr : Roomy env absent each) (s : Slot) (cell : Option Val) (n : EName) :
    Adds absent each (slotUpdate env s cell n) fun r n => ∀ v, r = .ok (.ok v) → ∃ c, cell = some c ∧ size v ≤ size c + n := by
  simp only [slotUpdate]
  have one : Adds absent each (match cell with
      | none => (.done (.error .ub) : Action DState (Except Fault (Except VErr Val)))
      | some _ => .done (.ok (.error (.wrap (.duplicateElement n))))) fun r n => ∀ v, r = .ok (.ok v) → ∃ c, cell = some c ∧ size v ≤ size c + n := by
    cases cell with
    | none => intro v h; cases h
    | some c => intro v h; cases h
  cases s.card with
  | one => exact one
  | opt => exact one
  | many =>
    dsimp only
    split
    · rename_i l
      refine (deserTy_held hr s.ty).map ?_
      intro r n h v hv
      obtain ⟨a, ha, hv⟩ := onOk_ok hv
      cases hv
      have := h a ha
      exact ⟨_, rfl, by simp only [size, sizes_append, sizes]; omega⟩
    · intro v h; cases h

/-- A field's memory afterwards. -/
def CellAtMost (absent : Nat) (st : FState) (r : Except Fault (FState × Except VErr Unit)) (n : Nat) : Prop :=
  ∀ st' o, r = .ok (st', o) → cellHeld absent st' ≤ cellHeld absent st + n

theorem enumElement_held (hr : Roomy env absent each) (e : Nat) (st : FState) (n : EName) (act : Action DState (Except Fault (FState × Except VErr Unit)))
    (h : enumElement env e st n = .ok (some act)) : Adds absent each act (CellAtMost absent st) := by
  have h2 := hr.two
  have stay : ∀ (r : Except VErr Unit), Adds absent each (.done (.ok (st, r))) (CellAtMost absent st) := by
    intro r st' o h; cases h; exact Nat.le_refl _
  have wr : ∀ v n, size v ≤ n + absent → CellAtMost absent st ((writeCell st v).map fun st => (st, Except.ok ())) n := by
    intro v n hv st' o h
    cases hw : writeCell st v with
    | error f => rw [hw] at h; cases h
    | ok x =>
      rw [hw] at h
      cases h
      obtain ⟨h1, h2⟩ := writeCell_held (absent := absent) hw
      omega
  simp only [enumElement] at h
  revert h
  cases lookup n (enumTable (variantNames (env.enm e).variants 0)) with
  | error f => intro h; cases h
  | ok found =>
    dsimp only
    split
    · cases hc : st.cell with
      | none => intro h; cases h
      | some c =>
        cases c with
        | enm i payload =>
          dsimp only
          cases (env.enm e).variants[i]? with
          | none => intro h; cases h
          | some v =>
            dsimp only
            split
            · cases hs : v.slot with
              | none => intro h; cases h; exact stay _
              | some s =>
                intro h
                cases h
                refine (slotUpdate_held hr s payload n).map ?_
                intro r n hn st' o ho
                cases r with
                | error f => cases ho
                | ok r =>
                  cases r with
                  | error e => cases ho; omega
                  | ok p =>
                    cases ho
                    obtain ⟨c, rfl, hp⟩ := hn p rfl
                    simp only [cellHeld, hc, Option.map_some, Option.getD_some, size]
                    omega
            · cases found with
              | none => intro h; cases h; exact stay _
              | some j => intro h; cases h; exact stay _
        | _ => intro h; cases h
    · cases found with
      | none => intro h; cases h
      | some i =>
        dsimp only
        cases (env.enm e).variants[i]? with
        | none => intro h; cases h
        | some v =>
          dsimp only
          cases hs : v.slot with
          | none =>
            intro h
            cases h
            exact wr _ 0 (by simp only [size]; omega)
          | some s =>
            intro h
            cases h
            refine (slotInit_held hr s).map ?_
            intro r n hn
            cases r with
            | error f => intro st' o ho; cases ho
            | ok r =>
              cases r with
              | error e => intro st' o ho; cases ho; omega
              | ok p =>
                have := hn p rfl
                exact wr _ n (by simp only [size]; omega)

/-- A visitor's state afterwards. -/
def StateAtMost (absent : Nat) (s : DState) (r : Except Fault (DState × Except VErr Unit)) (n : Nat) : Prop :=
  ∀ s' o, r = .ok (s', o) → heldState absent s' ≤ heldState absent s + n

theorem held_set {i : Nat} {fs : List FState} {p : Nat} {st st' : FState} {n : Nat} (h : fs[p]? = some st) (hs : cellHeld absent st' ≤ cellHeld absent st + n) :
    heldState absent (.strct i (fs.set p st')) ≤ heldState absent (.strct i fs) + n := by
  have := sum_set absent fs p st st' h
  show 1 + ((fs.set p st').map (cellHeld absent)).sum ≤ 1 + (fs.map (cellHeld absent)).sum + n
  omega

theorem delegate_held (hr : Roomy env absent each) (i : Nat) (fs : List FState) (n : EName) (l : List (Nat × Nat)) :
    Adds absent each (delegate env i fs n l) (StateAtMost absent (.strct i fs)) := by
  induction l with
  | nil => intro s' o h; cases h; exact Nat.le_refl _
  | cons x l ih =>
    obtain ⟨p, e⟩ := x
    simp only [delegate]
    cases hp : fs[p]? with
    | none => intro s' o h; cases h
    | some st =>
      dsimp only
      cases he : enumElement env e st n with
      | error f => intro s' o h; cases h
      | ok r =>
        cases r with
        | none => exact ih
        | some act =>
          refine (enumElement_held hr e st n act he).map ?_
          intro r n hn s' o h
          cases r with
          | error f => cases h
          | ok r =>
            cases h
            exact held_set hp (hn _ _ rfl)

theorem structElement_held (hr : Roomy env absent each) (i : Nat) (fs : List FState) (n : EName) :
    Adds absent each (structElement env i fs n) (StateAtMost absent (.strct i fs)) := by
  have h2 := hr.two
  simp only [structElement]
  cases lookup n (structTable (elemNames (env.strct i).fields 0)) with
  | error f => intro s' o h; cases h
  | ok found =>
    cases found with
    | none => exact delegate_held hr i fs n _
    | some p =>
      dsimp only
      split
      · rename_i st hf hp
        split
        · refine (slotUpdate_held hr _ st.cell n).map ?_
          intro r n hn s' o h
          cases r with
          | error f => cases h
          | ok r =>
            cases r with
            | error e => cases h; omega
            | ok v =>
              cases h
              obtain ⟨c, hc, hv⟩ := hn v rfl
              refine held_set hp ?_
              simp only [cellHeld, hc, Option.map_some, Option.getD_some]
              exact hv
        · refine (slotInit_held hr _).map ?_
          intro r n hn s' o h
          cases r with
          | error f => cases h
          | ok r =>
            cases r with
            | error e => cases h; omega
            | ok v =>
              have hv := hn v rfl
              cases hw : writeCell st v with
              | error f => simp only [hw] at h; cases h
              | ok x =>
                simp only [hw] at h
                cases h
                obtain ⟨h3, h4⟩ := writeCell_held (absent := absent) hw
                exact held_set hp (by omega)
      · intro s' o h; cases h

theorem structAttribute_held (hr : Roomy env absent each) (i : Nat) (fs : List FState) (n : EName) (x : String) :
    StateAtMost absent (.strct i fs) (structAttribute env i fs n x) x.utf8ByteSize := by
  have h2 := hr.two
  intro s' o h
  simp only [structAttribute] at h
  revert h
  cases lookup n (structTable (attrNames (env.strct i).fields 0)) with
  | error f => intro h; cases h
  | ok found =>
    cases found with
    | none => intro h; cases h; omega
    | some p =>
      dsimp only
      split
      · rename_i optional t _ st hf hp
        split
        · intro h; cases h; omega
        · dsimp only [attrInit]
          cases ht : t.parse x with
          | err e => intro h; cases h; omega
          | fault f => intro h; cases h
          | ok v =>
            dsimp only
            intro h
            have hv := parse_held t x v ht
            generalize hy : (if optional = true then Val.opt (some (.text v)) else .text v) = y at h
            have hs : size y ≤ 2 + x.utf8ByteSize := by subst hy; split <;> simp only [size] <;> omega
            cases hw : writeCell st y with
            | error f => rw [hw] at h; cases h
            | ok z =>
              rw [hw] at h
              cases h
              obtain ⟨h3, h4⟩ := writeCell_held (absent := absent) hw
              exact held_set hp (by omega)
      · intro h; cases h

theorem onElem_held (hr : Roomy env absent each) (s : DState) (i : ElemInfo) : Adds absent each ((derivedVisitor env).onElem s i) (StateAtMost absent s) := by
  cases s with
  | strct j fs => exact structElement_held hr j fs _
  | enm j st =>
    simp only [derivedVisitor]
    cases he : enumElement env j st i.name.expanded with
    | error f => intro s' o h; cases h
    | ok r =>
      cases r with
      | none => intro s' o h; cases h; exact Nat.le_refl _
      | some act =>
        refine (enumElement_held hr j st _ act he).map ?_
        intro r n hn s' o h
        cases r with
        | error f => cases h
        | ok r => cases h; exact hn _ _ rfl

theorem derived_frugal (hr : Roomy env absent each) : Frugal (derivedVisitor env) (heldState absent) each where
  attr v n x v' r h := by
    cases v with
    | strct i fs => exact structAttribute_held hr i fs n x _ _ h
    | enm i st => cases h; omega
  chars v x p v' r h := by cases h; omega
  done v i v' r h := by
    have := onElem_held hr v i
    rw [h] at this
    have := this _ _ rfl
    omega
  string v i k h := by
    have := onElem_held hr v i
    rw [h] at this
    exact ⟨fun e v' r hk => by have := this.1 e _ _ hk; omega, fun x v' r hk => by have := this.2 x _ _ hk; omega⟩
  sub v i sub k h := by
    have := onElem_held hr v i
    rw [h] at this
    exact ⟨this.1, fun sub' x v' r hk => by have := this.2 sub' x _ _ hk; omega⟩

theorem deserTy_frugal (hr : Roomy env absent each) (ty : Ty) : FrugalDeser (fun _ => deserTy env ty) (heldState absent) size each where
  done i x h := by
    have := deserTy_held hr ty
    rw [h] at this
    have := this x rfl
    omega
  string i k h := by
    have := deserTy_held hr ty
    rw [h] at this
    exact ⟨fun e x hk => by have := this.1 e _ hk; omega, fun t x hk => this.2 t _ hk⟩
  sub i sub k h := by
    have := deserTy_held hr ty
    rw [h] at this
    exact ⟨this.1, fun sub' r x hk => by have := this.2 sub' r _ hk; omega⟩

end SX.Space
