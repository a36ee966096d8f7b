import Verif.Proof.OpenFields
import Verif.Spec.OpenDerived

/-
The derived visitors of `Model/DeriveDe.lean` are those of `Model/Open.lean` for derived field types.
-/
namespace SX.Open
open SX.Spec.Open

theorem map_map {σ ρ ρ' ρ'' : Type} (a : Action σ ρ) (f : ρ → ρ') (g : ρ' → ρ'') :
    (a.map f).map g = a.map fun r => g (f r) := by
  cases a <;> rfl

theorem map_congr {σ ρ ρ' : Type} {a : Action σ ρ} {f g : ρ → ρ'} (h : ∀ r, f r = g r) : a.map f = a.map g := by
  rw [show f = g from funext h]

theorem enumReached {env : Env} {e : Nat} {st : OEnum Val} (h : Reached (flattenImpl env e) st) :
    EnumOk (openVariants env e) st := by
  obtain ⟨h, hr⟩ := h
  have key : ∀ (h : List (Call DState)) st st', EnumOk (openVariants env e) st → run (flattenImpl env e) h st = .ok st' →
      EnumOk (openVariants env e) st' := by
    intro h
    induction h with
    | nil => intro st st' hs hr; cases hr; exact hs
    | cons c h ih =>
      intro st st' hs hr
      unfold run at hr
      cases c with
      | attr n v => exact ih st st' hs hr
      | chars v pos => exact ih st st' hs hr
      | elem info s =>
        unfold step at hr
        rw [show (flattenImpl env e).element = enumElement (openVariants env e) from rfl] at hr
        rcases enumElement_ok (openVariants env e) st info s hs with h1 | ⟨a, st1, x, h1, h2, h3⟩
        · simp only [h1] at hr
          exact ih st st' hs hr
        · simp only [h1, h2] at hr
          exact ih st1 st' h3 hr
  exact key h _ st (.inl ⟨rfl, rfl⟩) hr

theorem variantNames_open (env : Env) (e : Nat) (hskip : ∀ v ∈ (env.enm e).variants, v.skip = false) :
    variantNames (openVariants env e) 0 = SX.variantNames (env.enm e).variants 0 := by
  unfold openVariants
  generalize (env.enm e).variants = vs at hskip
  generalize 0 = k
  induction vs generalizing k with
  | nil => rfl
  | cons v vs ih =>
    rw [List.map_cons, variantNames, SX.variantNames, ih (fun w hw => hskip w (by simp [hw])), hskip v (by simp)]
    rfl

/-- The enum visitor, seen from `read_to` and from flattening structs: `f` puts the enum's state into a bigger one. -/
theorem enumElement_open (env : Env) (e : Nat) (hskip : ∀ v ∈ (env.enm e).variants, v.skip = false) (st : OEnum Val)
    (hst : EnumOk (openVariants env e) st) (info : ElemInfo) :
    (∃ x y, SX.enumElement env e (enumState st) info.name.expanded = .error x ∧ enumElement (openVariants env e) st info = .error y) ∨
    (SX.enumElement env e (enumState st) info.name.expanded = .ok none ∧
      enumElement (openVariants env e) st info = .ok (.back st)) ∨
    ∃ a b, SX.enumElement env e (enumState st) info.name.expanded = .ok (some a) ∧
      enumElement (openVariants env e) st info = .ok (.take b) ∧
      ∀ f : FState → DState, (a.map fun r => someOk (r.map fun (st, r) => (f st, r))) = b.map fun r => someRet r fun st => f (enumState st) := by
  unfold SX.enumElement enumElement
  rw [variantNames_open env e hskip]
  obtain ⟨found, hl⟩ := lookup_total (enumTable (SX.variantNames (env.enm e).variants 0)) info.name.expanded
  dsimp only
  simp only [hl]
  have hget : ∀ i : Nat, (openVariants env e)[i]? = ((env.enm e).variants[i]?).map fun v =>
      { name := v.name, payload := v.slot.map (slotImpl env) } := by
    intro i
    unfold openVariants
    rw [List.getElem?_map]
  obtain ⟨ini, cell⟩ := st
  rcases hst with ⟨h1, h2⟩ | ⟨h1, i, v, p, h2, h3, h4⟩
  · simp only at h1 h2
    subst h1 h2
    simp only [enumState, Option.map_none]
    simp only [Bool.false_eq_true, if_false]
    cases found with
    | none => exact .inr (.inl ⟨rfl, rfl⟩)
    | some i =>
      simp only [hget]
      cases hv : (env.enm e).variants[i]? with
      | none => exact .inl ⟨_, _, rfl, rfl⟩
      | some v =>
        simp only [Option.map_some]
        right; right
        cases hs : v.slot with
        | none => exact ⟨_, _, rfl, rfl, fun f => rfl⟩
        | some s =>
          simp only [Option.map_some]
          refine ⟨_, _, rfl, rfl, fun f => ?_⟩
          simp only [slotImpl, map_map]
          refine map_congr fun r => ?_
          cases r with
          | error x => rfl
          | ok r =>
            cases r with
            | error x => rfl
            | ok x => rfl
  · simp only at h1 h2
    subst h1 h2
    simp only [enumState, Option.map_some, enumVal, if_true, h3]
    rw [hget] at h3
    obtain ⟨w, hw, rfl⟩ := Option.map_eq_some_iff.mp h3
    simp only [hw]
    right; right
    by_cases hf : found = some i
    · rw [if_pos hf, if_pos hf]
      cases hs : w.slot with
      | none =>
        rw [hs] at h4
        cases p with
        | some x => simp at h4
        | none => exact ⟨_, _, rfl, rfl, fun f => rfl⟩
      | some s =>
        rw [hs] at h4
        cases p with
        | none => simp at h4
        | some x =>
          simp only [Option.map_some]
          refine ⟨_, _, rfl, rfl, fun f => ?_⟩
          simp only [slotImpl, map_map]
          refine map_congr fun r => ?_
          cases r with
          | error x => rfl
          | ok r =>
            cases r with
            | error x => rfl
            | ok x => rfl
    · rw [if_neg hf, if_neg hf]
      cases found with
      | none => exact ⟨_, _, rfl, rfl, fun f => rfl⟩
      | some j => exact ⟨_, _, rfl, rfl, fun f => rfl⟩

theorem elemNames_open (env : Env) (i : Nat) : elemNames (openFields env i) 0 = SX.elemNames (env.strct i).fields 0 := by
  unfold openFields
  generalize (env.strct i).fields = l
  generalize 0 = k
  induction l generalizing k with
  | nil => rfl
  | cons f l ih =>
    rw [List.map_cons, elemNames, SX.elemNames, ih]
    cases hk : f.kind <;> simp [openField, hk]

theorem attrNames_open (env : Env) (i : Nat) (hT : ∀ f ∈ (env.strct i).fields, ∀ t, f.kind ≠ .text t) :
    attrNames (openFields env i) 0 = SX.attrNames (env.strct i).fields 0 := by
  unfold openFields
  generalize (env.strct i).fields = l at hT
  generalize 0 = k
  induction l generalizing k with
  | nil => rfl
  | cons f l ih =>
    rw [List.map_cons, attrNames, SX.attrNames, ih (fun g hg => hT g (by simp [hg]))]
    cases hk : f.kind with
    | text t => exact absurd hk (hT f (by simp) t)
    | element s => simp [openField, hk]
    | «attribute» o t => simp [openField, hk]
    | flatten e => simp [openField, hk]

theorem flatPos_open (env : Env) (i : Nat) : flatPos (openFields env i) 0 = (flattens (env.strct i).fields 0).map Prod.fst := by
  unfold openFields
  generalize (env.strct i).fields = l
  generalize 0 = k
  induction l generalizing k with
  | nil => rfl
  | cons f l ih =>
    rw [List.map_cons, flatPos, flattens, ih]
    cases hk : f.kind <;> simp [openField, hk]

theorem openFields_get (env : Env) (i p : Nat) : (openFields env i)[p]? = ((env.strct i).fields[p]?).map (openField env) := by
  unfold openFields
  rw [List.getElem?_map]

theorem set_self {β : Type} {l : List β} {p : Nat} {x : β} (h : l[p]? = some x) : l.set p x = l := by
  apply List.ext_getElem?
  intro q
  by_cases hq : p = q
  · subst hq
    rw [List.getElem?_set_self (List.getElem?_eq_some_iff.mp h).1, h]
  · rw [List.getElem?_set_ne hq]

theorem delegate_open (env : Env) (i : Nat) (hskip : ∀ e, ∀ v ∈ (env.enm e).variants, v.skip = false) (info : ElemInfo)
    (l : List (Nat × Nat)) (hl : ∀ x ∈ l, ∃ f, (env.strct i).fields[x.1]? = some f ∧ f.kind = .flatten x.2)
    (fs : List (OCell (OEnum Val) Val)) (hfs : CellsOk (openFields env i) fs) :
    (SX.delegate env i (fs.map fieldState) info.name.expanded l).map someOk =
      someOffer (delegateElement (openFields env i) info (l.map Prod.fst) fs) (fun fs => .strct i (fs.map fieldState)) := by
  induction l with
  | nil => rfl
  | cons x l ih =>
    obtain ⟨p, e⟩ := x
    obtain ⟨f, hf, hk⟩ := hl (p, e) (by simp)
    simp only at hf hk
    have ih := ih (fun y hy => hl y (by simp [hy]))
    have hof : (openFields env i)[p]? = some (openField env f) := by rw [openFields_get, hf]; rfl
    obtain ⟨c, hc, hok⟩ := hfs.get hof
    have hkind : (openField env f).kind = .flatten (flattenImpl env e) := by simp [openField, hk]
    unfold CellOk at hok
    rw [hkind] at hok
    obtain ⟨st, rfl, hst⟩ := hok
    have hst := enumReached hst
    rw [List.map_cons]
    unfold SX.delegate delegateElement
    have hcm : (fs.map fieldState)[p]? = some (enumState st) := by rw [List.getElem?_map, hc]; rfl
    rw [hcm, hof, hc]
    have hofield : openField env f = ⟨f.name, .flatten (flattenImpl env e), f.default.map .ok⟩ := by
      simp [openField, hk]
    rw [hofield]
    simp only
    rw [show (flattenImpl env e).element st info = enumElement (openVariants env e) st info from rfl]
    rcases enumElement_open env e (hskip e) st hst info with ⟨x, y, h1, h2⟩ | ⟨h1, h2⟩ | ⟨a, b, h1, h2, h3⟩
    · rw [h1, h2]; rfl
    · rw [h1, h2]
      simp only [set_self hc]
      exact ih
    · rw [h1, h2]
      simp only
      unfold someOffer
      simp only [map_map]
      have h3 := h3 (fun st => .strct i ((fs.map fieldState).set p st))
      refine h3.trans ?_
      refine map_congr fun r => ?_
      cases r with
      | error x => rfl
      | ok r =>
        obtain ⟨st', r⟩ := r
        cases r with
        | ok u => simp [someRet, Except.map, List.map_set, fieldState]
        | err e => simp [someRet, Except.map, List.map_set, fieldState]
        | panic => rfl

theorem structElement_open (env : Env) (i : Nat) (hskip : ∀ e, ∀ v ∈ (env.enm e).variants, v.skip = false) (info : ElemInfo)
    (fs : List (OCell (OEnum Val) Val)) (hfs : CellsOk (openFields env i) fs) :
    (SX.structElement env i (fs.map fieldState) info.name.expanded).map someOk =
      someOffer (structElement (openFields env i) fs info) (fun fs => .strct i (fs.map fieldState)) := by
  unfold SX.structElement structElement
  rw [elemNames_open]
  dsimp only
  rcases SX.lookup_elem (env.strct i).fields info.name.expanded with ⟨p, f, s, h1, hf, hk, -⟩ | ⟨h1, -⟩
  · simp only [h1]
    have hof : (openFields env i)[p]? = some (openField env f) := by rw [openFields_get, hf]; rfl
    obtain ⟨c, hc, hok⟩ := hfs.get hof
    have hofield : openField env f = ⟨f.name, .element (slotImpl env s), f.default.map .ok⟩ := by
      simp [openField, hk]
    rw [hofield] at hok hof
    obtain ⟨cell, rfl⟩ := hok
    have hcm : (fs.map fieldState)[p]? = some ⟨cell.isSome, cell⟩ := by rw [List.getElem?_map, hc]; rfl
    obtain ⟨nm, kd, df⟩ := f
    simp only at hk
    subst hk
    simp only [hof, hf, hc, hcm]
    cases cell with
    | some v =>
      simp only [Option.isSome_some, if_true]
      unfold someOffer
      simp only [slotImpl, map_map]
      refine map_congr fun r => ?_
      cases r with
      | error x => rfl
      | ok r =>
        cases r with
        | error x =>
          simp only [someOk, someRet, ret, List.map_set, fieldState]
          rw [set_self (show (fs.map fieldState)[p]? = some ⟨true, some v⟩ from hcm)]
        | ok x => simp [someOk, someRet, ret, List.map_set, fieldState]
    | none =>
      simp only [Option.isSome_none, Bool.false_eq_true, if_false]
      unfold someOffer
      simp only [slotImpl, map_map]
      refine map_congr fun r => ?_
      cases r with
      | error x => rfl
      | ok r =>
        cases r with
        | error x => rfl
        | ok x => simp [someOk, someRet, ret, List.map_set, fieldState, write, writeCell, Except.map]
  · simp only [h1]
    rw [flatPos_open]
    refine delegate_open env i hskip info _ (fun x hx => ?_) fs hfs
    obtain ⟨f, -, hf, hk⟩ := flattens_mem (env.strct i).fields 0 x.1 x.2 hx
    exact ⟨f, by simpa using hf, hk⟩

/-- The result of `attribute` or `characters`, without what is handed back. -/
theorem delegateAttribute_open (env : Env) (i : Nat) (n : EName)
    (l : List Nat) (hl : ∀ p ∈ l, ∃ f e, (env.strct i).fields[p]? = some f ∧ f.kind = .flatten e)
    (fs : List (OCell (OEnum Val) Val)) (hfs : CellsOk (openFields env i) fs) (value : String) :
    delegateAttribute (openFields env i) n l fs value = .ok (fs, .ok (some value)) := by
  induction l with
  | nil => rfl
  | cons p l ih =>
    obtain ⟨f, e, hf, hk⟩ := hl p (by simp)
    have hof : (openFields env i)[p]? = some (openField env f) := by rw [openFields_get, hf]; rfl
    obtain ⟨c, hc, hok⟩ := hfs.get hof
    have hofield : openField env f = ⟨f.name, .flatten (flattenImpl env e), f.default.map .ok⟩ := by
      simp [openField, hk]
    rw [hofield] at hok hof
    obtain ⟨st, rfl, -⟩ := hok
    unfold delegateAttribute
    simp only [hof, hc]
    rw [show (flattenImpl env e).attr st n value = .ok (st, .ok (some value)) from rfl]
    simp only [set_self hc]
    exact ih (fun q hq => hl q (by simp [hq]))

theorem delegateCharacters_open (env : Env) (i : Nat) (pos : Pos)
    (l : List Nat) (hl : ∀ p ∈ l, ∃ f e, (env.strct i).fields[p]? = some f ∧ f.kind = .flatten e)
    (fs : List (OCell (OEnum Val) Val)) (hfs : CellsOk (openFields env i) fs) (s : String) :
    delegateCharacters (openFields env i) pos l fs s = .ok (fs, .ok (some s)) := by
  induction l with
  | nil => rfl
  | cons p l ih =>
    obtain ⟨f, e, hf, hk⟩ := hl p (by simp)
    have hof : (openFields env i)[p]? = some (openField env f) := by rw [openFields_get, hf]; rfl
    obtain ⟨c, hc, hok⟩ := hfs.get hof
    have hofield : openField env f = ⟨f.name, .flatten (flattenImpl env e), f.default.map .ok⟩ := by
      simp [openField, hk]
    rw [hofield] at hok hof
    obtain ⟨st, rfl, -⟩ := hok
    unfold delegateCharacters
    simp only [hof, hc]
    rw [show (flattenImpl env e).characters st s pos = .ok (st, .ok (some s)) from rfl]
    simp only [set_self hc]
    exact ih (fun q hq => hl q (by simp [hq]))

theorem flatPos_flatten (env : Env) (i p : Nat) (hp : p ∈ flatPos (openFields env i) 0) :
    ∃ f e, (env.strct i).fields[p]? = some f ∧ f.kind = .flatten e := by
  rw [flatPos_open] at hp
  obtain ⟨⟨p', e⟩, hx, rfl⟩ := List.mem_map.mp hp
  obtain ⟨f, -, hf, hk⟩ := flattens_mem (env.strct i).fields 0 _ e hx
  exact ⟨f, e, by simpa using hf, hk⟩

theorem structAttribute_open (env : Env) (i : Nat) (hT : ∀ f ∈ (env.strct i).fields, ∀ t, f.kind ≠ .text t)
    (n : EName) (value : String) (fs : List (OCell (OEnum Val) Val)) (hfs : CellsOk (openFields env i) fs) :
    someOk (SX.structAttribute env i (fs.map fieldState) n value) =
      someAttr (structAttribute (openFields env i) fs n value) (fun fs => .strct i (fs.map fieldState)) := by
  unfold SX.structAttribute structAttribute
  rw [attrNames_open env i hT]
  dsimp only
  rcases SX.lookup_attr (env.strct i).fields n with ⟨p, f, o, t, h1, hf, hk, -⟩ | ⟨h1, -⟩
  · simp only [h1]
    have hof : (openFields env i)[p]? = some (openField env f) := by rw [openFields_get, hf]; rfl
    obtain ⟨c, hc, hok⟩ := hfs.get hof
    have hofield : openField env f = ⟨f.name, .attribute (attrImpl o t), f.default.map .ok⟩ := by
      simp [openField, hk]
    rw [hofield] at hok hof
    obtain ⟨cell, rfl⟩ := hok
    have hcm : (fs.map fieldState)[p]? = some ⟨cell.isSome, cell⟩ := by rw [List.getElem?_map, hc]; rfl
    obtain ⟨nm, kd, df⟩ := f
    simp only at hk
    subst hk
    simp only [hof, hf, hc, hcm]
    cases cell with
    | some v => rfl
    | none =>
      simp only [Option.isSome_none, Bool.false_eq_true, if_false, attrImpl]
      cases h : attrInit o t value with
      | error x => rfl
      | ok r =>
        cases r with
        | error x => rfl
        | ok x => simp [someOk, someAttr, ret, List.map_set, fieldState, write, writeCell, Except.map]
  · simp only [h1]
    rw [delegateAttribute_open env i n _ (fun p hp => flatPos_flatten env i p hp) fs hfs]
    rfl

theorem finalizeCell_open (env : Env) (f : Field) (hT : ∀ t, f.kind ≠ .text t) (c : OCell (OEnum Val) Val)
    (hc : CellOk (openField env f) c) :
    (∃ e c', finalizeField env f (fieldState c) = .ok (.error e) ∧ finalizeCell (openField env f) c = .ok (c', .err e)) ∨
    ∃ st v c', finalizeField env f (fieldState c) = .ok (.ok st) ∧ st.cell = some v ∧
      finalizeCell (openField env f) c = .ok (c', .ok ()) ∧ cellOut (openField env f) c' = some v := by
  obtain ⟨nm, kd, df⟩ := f
  cases kd with
  | text t => exact absurd rfl (hT t)
  | element s =>
    obtain ⟨cell, rfl⟩ := hc
    cases cell with
    | some v => exact .inr ⟨_, v, _, rfl, rfl, rfl, rfl⟩
    | none =>
      cases df with
      | some d => exact .inr ⟨_, d, _, rfl, rfl, rfl, rfl⟩
      | none =>
        obtain ⟨card, ty⟩ := s
        cases card with
        | one => exact .inl ⟨_, _, rfl, rfl⟩
        | opt => exact .inr ⟨_, _, _, rfl, rfl, rfl, rfl⟩
        | many => exact .inr ⟨_, _, _, rfl, rfl, rfl, rfl⟩
  | «attribute» o t =>
    obtain ⟨cell, rfl⟩ := hc
    cases cell with
    | some v => exact .inr ⟨_, v, _, rfl, rfl, rfl, rfl⟩
    | none =>
      cases df with
      | some d => exact .inr ⟨_, d, _, rfl, rfl, rfl, rfl⟩
      | none =>
        cases o with
        | true => exact .inr ⟨_, _, _, rfl, rfl, rfl, rfl⟩
        | false => exact .inl ⟨_, _, rfl, rfl⟩
  | flatten e =>
    obtain ⟨st, rfl, hst⟩ := hc
    obtain ⟨b, cell⟩ := st
    rcases enumReached hst with ⟨h1, h2⟩ | ⟨h1, i, v, p, h2, -⟩
    · simp only at h1 h2
      subst h1 h2
      exact .inl ⟨_, _, rfl, rfl⟩
    · simp only at h1 h2
      subst h1 h2
      exact .inr ⟨_, _, _, rfl, rfl, rfl, rfl⟩

theorem finalizeCells_open (env : Env) (l : List Field) (hT : ∀ f ∈ l, ∀ t, f.kind ≠ .text t)
    (cs : List (OCell (OEnum Val) Val)) (hcs : CellsOk (l.map (openField env)) cs) :
    someOk (finalizeFields env l (cs.map fieldState)) = someFinal (structRaw (l.map (openField env))) id cs none := by
  unfold someFinal
  simp only [structRaw]
  induction l generalizing cs with
  | nil => rfl
  | cons f l ih =>
    cases cs with
    | nil => exact hcs.elim
    | cons c cs =>
      have ih := ih (fun g hg => hT g (by simp [hg])) cs hcs.2
      rw [List.map_cons, List.map_cons]
      unfold finalizeFields finalizeCells
      rcases finalizeCell_open env f (hT f (by simp)) c hcs.1 with ⟨e, c', h1, h2⟩ | ⟨st, v, c', h1, h2, h3, h4⟩
      · rw [h1, h2]; rfl
      · rw [h1, h3]
        simp only [onOk, h2]
        cases h5 : finalizeFields env l (cs.map fieldState) with
        | error x =>
          rw [h5] at ih
          simp only [someOk] at ih ⊢
          cases h6 : finalizeCells (l.map (openField env)) cs with
          | error y => rfl
          | ok r =>
            obtain ⟨cs', r⟩ := r
            rw [h6] at ih
            cases r with
            | ok u =>
              simp only [Except.map] at ih ⊢
              rw [structOut, h4]
              cases h7 : structOut (l.map (openField env)) cs' with
              | none => rfl
              | some vs => rw [h7] at ih; cases ih
            | err e => cases ih
            | panic => rfl
        | ok r =>
          rw [h5] at ih
          cases h6 : finalizeCells (l.map (openField env)) cs with
          | error y => rw [h6] at ih; cases r <;> cases ih
          | ok q =>
            obtain ⟨cs', q⟩ := q
            rw [h6] at ih
            cases q with
            | panic => cases r <;> cases ih
            | err e =>
              simp only [someOk, Option.some.injEq] at ih
              subst ih
              rfl
            | ok u =>
              simp only [Except.map, someOk] at ih ⊢
              rw [structOut, h4]
              cases h7 : structOut (l.map (openField env)) cs' with
              | none => rw [h7] at ih; cases ih
              | some vs =>
                rw [h7] at ih
                cases ih
                rfl

theorem someFinal_map {σ τ α β : Type} (raw : Raw σ τ α) (f : α → β) (t : τ) (d : Option (Ret Empty α)) :
    someFinal raw f t d = (someFinal raw id t d).map fun r => r.map f := by
  unfold someFinal
  split <;> simp [Except.map, Option.map_map, Function.comp_def]

/-- The struct visitor's `finalize`. -/
theorem finalize_open (env : Env) (i : Nat) (hT : ∀ f ∈ (env.strct i).fields, ∀ t, f.kind ≠ .text t)
    (cs : List (OCell (OEnum Val) Val)) (hcs : CellsOk (openFields env i) cs) :
    someOk (SX.finalize env (.strct i (cs.map fieldState))) = someFinal (structRaw (openFields env i)) .strct cs none := by
  have h := finalizeCells_open env (env.strct i).fields hT cs hcs
  rw [someFinal_map, show openFields env i = (env.strct i).fields.map (openField env) from rfl, ← h]
  rw [show SX.finalize env (.strct i (cs.map fieldState)) = onOk (fun vs => .ok (.ok (.strct vs)))
    (finalizeFields env (env.strct i).fields (cs.map fieldState)) from rfl]
  cases finalizeFields env (env.strct i).fields (cs.map fieldState) with
  | error x => rfl
  | ok r => cases r <;> rfl

/-- The enum visitor's `finalize`. -/
theorem enumFinalize_open (env : Env) (e : Nat) (st : OEnum Val) (hst : EnumOk (openVariants env e) st) :
    someOk (SX.finalize env (.enm e (enumState st))) =
      someFinal (enumRaw (env.enm e).ident (openVariants env e)) enumVal st none := by
  obtain ⟨b, cell⟩ := st
  rcases hst with ⟨h1, h2⟩ | ⟨h1, i, v, p, h2, -⟩
  · simp only at h1 h2
    subst h1 h2
    rfl
  · simp only at h1 h2
    subst h1 h2
    rfl

theorem newStruct_open (env : Env) (i : Nat) :
    newStruct env i = .strct i ((structRaw (openFields env i)).new.map fieldState) := by
  unfold newStruct structRaw openFields
  simp only [DState.strct.injEq, true_and, List.map_map]
  refine List.map_congr_left fun f _ => ?_
  unfold Function.comp newCell openField
  cases f.kind <;> rfl

theorem flattenImpl_run (env : Env) (e : Nat) (h : List (Call DState)) (st : OEnum Val) :
    run (flattenImpl env e) h st = run (enumRaw (env.enm e).ident (openVariants env e)) h st := by
  induction h generalizing st with
  | nil => rfl
  | cons c h ih =>
    unfold run
    have hs : step (flattenImpl env e) st c = step (enumRaw (env.enm e).ident (openVariants env e)) st c := by
      cases c <;> rfl
    rw [hs]
    cases step (enumRaw (env.enm e).ident (openVariants env e)) st c with
    | error x => rfl
    | ok st' => exact ih st'

theorem flattenImpl_sound (env : Env) (e : Nat) : Sound (flattenImpl env e) := by
  intro h
  obtain ⟨st, h1, h2⟩ := enumRaw_sound (env.enm e).ident (openVariants env e) h
  refine ⟨st, (flattenImpl_run env e h _).trans h1, fun d => ?_⟩
  obtain ⟨st', r, h3, h4⟩ := h2 none
  refine ⟨st', r, h3, fun hr => ?_⟩
  obtain ⟨v, hv⟩ := h4 hr
  exact ⟨enumVal v, by show st'.cell.map enumVal = _; rw [show st'.cell = some v from hv]; rfl⟩

theorem flatSound_open (env : Env) (i : Nat) : FlatSound (openFields env i) := by
  intro f hf raw hk
  obtain ⟨g, -, rfl⟩ := List.mem_map.mp hf
  cases h : g.kind with
  | flatten e =>
    simp only [openField, h, OKind.flatten.injEq] at hk
    subst hk
    exact flattenImpl_sound env e
  | element s => simp [openField, h] at hk
  | «attribute» o t => simp [openField, h] at hk
  | text t => simp [openField, h] at hk

end SX.Open
