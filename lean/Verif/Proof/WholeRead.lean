import Verif.Proof.WholeOpen
import Verif.Props.Open

/-
The emitted code of a crate and the derived implementations for its declarations do the same.
-/
namespace SX.Whole
open SX.Open Spec Spec.Open SX.Gen Spec.Gen

/-- What is used of declarations and of the code that was emitted for them. -/
structure Facts (c : Crate) (code : Emitted) (types : Types) (env : Env) (sOf : Nat → MStruct) (eOf : Nat → MEnum) : Prop where
  tied : c.Tied code types
  structAlike : ∀ i, Alike id (structRaw ((sOf i).fields.map (oField types (c.fieldTy i)))) (c.prg code types i).raw
  structDef : ∀ i, (env.strct i).fields = (sOf i).fields.map fun f => f.toField (c.means (c.fieldTy i f.ident))
  noText : ∀ i, ∀ f ∈ (sOf i).fields, f.mode ≠ .text
  enumAlike : ∀ e, Alike (Gen.named (eOf e).variants) (enumRaw (env.enm e).ident ((eOf e).variants.map (oVariant types (c.payloadTy e))))
    (c.eprg code types e).raw
  variants : ∀ e, (env.enm e).variants = (eOf e).variants.map fun w =>
    { name := w.name.declared, slot := if w.payload then some (c.means (c.payloadTy e w.ident)).element else none, skip := false }
  idents : ∀ e, ((declVariants (c.enm e)).map fun v => v.ident) = (eOf e).variants.map fun v => v.ident
  nodup : ∀ e, ((eOf e).variants.map fun v => v.ident).Nodup

section
variable {c : Crate} {code : Emitted} {types : Types} {env : Env} {sOf : Nat → MStruct} {eOf : Nat → MEnum}

/-- States of enums. -/
def TE (c : Crate) (code : Emitted) (types : Types) (env : Env) (eOf : Nat → MEnum) (e : Nat) (t : OEnum Val) (u : GEState Val) : Prop :=
  (∃ t', t = t' ∧ ∃ h, run (enumRaw (env.enm e).ident ((eOf e).variants.map (oVariant types (c.payloadTy e)))) h
      (enumRaw (env.enm e).ident ((eOf e).variants.map (oVariant types (c.payloadTy e)))).new = .ok t' ∧
    run (c.eprg code types e).raw h (c.eprg code types e).raw.new = .ok u) ∧
  Reached (enumRaw (env.enm e).ident (openVariants env e)) t

/-- States of flattened fields, by position. -/
def TP (c : Crate) (code : Emitted) (types : Types) (env : Env) (sOf : Nat → MStruct) (eOf : Nat → MEnum) (i p : Nat) (t : OEnum Val)
    (u : GEState Val) : Prop :=
  match (sOf i).fields[p]? with
  | some f => TE c code types env eOf (c.means (c.fieldTy i f.ident)).flatten t u
  | none => False

/-- States of structs. -/
def TS (c : Crate) (code : Emitted) (types : Types) (env : Env) (sOf : Nat → MStruct) (eOf : Nat → MEnum) (i : Nat)
    (t : List (OCell (OEnum Val) Val)) (u : GState (GEState Val) Val) : Prop :=
  (∃ t', Cells (TP c code types env sOf eOf i) t t' ∧ ∃ h, run (structRaw ((sOf i).fields.map (oField types (c.fieldTy i)))) h
      (structRaw ((sOf i).fields.map (oField types (c.fieldTy i)))).new = .ok t' ∧
    run (c.prg code types i).raw h (c.prg code types i).raw.new = .ok u) ∧
  Reached (structRaw (openFields env i)) t

/-- States of visitors. -/
def R (c : Crate) (code : Emitted) (types : Types) (env : Env) (sOf : Nat → MStruct) (eOf : Nat → MEnum) : DState → GenState → Prop
  | .strct i fs, .strct j g => i = j ∧ ∃ t, fs = t.map fieldState ∧ TS c code types env sOf eOf i t g
  | .enm e st, .enm e' u => e = e' ∧ ∃ t, st = enumState t ∧ TE c code types env eOf e t u
  | _, _ => False

theorem unskipped (F : Facts c code types env sOf eOf) (e : Nat) : ∀ v ∈ (env.enm e).variants, v.skip = false := by
  intro v hv
  rw [F.variants e] at hv
  obtain ⟨w, _, rfl⟩ := List.mem_map.mp hv
  rfl

theorem textless (F : Facts c code types env sOf eOf) (i : Nat) : ∀ f ∈ (env.strct i).fields, ∀ t, f.kind ≠ .text t := by
  intro f hf t hk
  rw [F.structDef i] at hf
  obtain ⟨m, hm, rfl⟩ := List.mem_map.mp hf
  have := F.noText i m hm
  unfold MField.toField at hk
  cases h : m.mode <;> simp only [h] at hk <;> cases hk
  exact this h

theorem idxOf_getElem (l : List String) (hn : l.Nodup) (i : Nat) (x : String) (h : l[i]? = some x) : l.idxOf x = i := by
  induction l generalizing i with
  | nil => simp at h
  | cons a l ih =>
    rw [List.nodup_cons] at hn
    cases i with
    | zero => simp at h; subst h; simp [List.idxOf_cons]
    | succ i =>
      simp only [List.getElem?_cons_succ] at h
      have hm : x ∈ l := List.mem_of_getElem? h
      have hne : a ≠ x := fun he => hn.1 (he ▸ hm)
      rw [List.idxOf_cons]
      have : (a == x) = false := by simp [hne]
      rw [this, ih hn.2 i h]
      rfl

theorem variantVal_named (F : Facts c code types env sOf eOf) (e i : Nat) (p : Option Val) (hi : i < (openVariants env e).length) :
    variantVal (c.enm e) (Gen.named (eOf e).variants (i, p)) = enumVal (i, p) := by
  have hl : i < (eOf e).variants.length := by
    unfold openVariants at hi
    rw [F.variants e] at hi
    simpa using hi
  unfold variantVal enumVal
  rw [F.idents e]
  simp only [Gen.named]
  rw [idxOf_getElem _ (F.nodup e) i]
  unfold variantIdent
  rw [List.getElem?_eq_getElem hl, List.getElem?_map, List.getElem?_eq_getElem hl]
  rfl

theorem enumOk (e : Nat) {t : OEnum Val} (h : Reached (enumRaw (env.enm e).ident (openVariants env e)) t) : Open.EnumOk (openVariants env e) t := by
  obtain ⟨h, hr⟩ := h
  exact enumReached ⟨h, (flattenImpl_run env e h _).trans hr⟩

/-- Enums are finalized alike. -/
theorem enum_final (F : Facts c code types env sOf eOf) (e : Nat) {t : OEnum Val} {u : GEState Val} (h : TE c code types env eOf e t u) :
    Both (Final id (flattenImpl env e).out (c.flat code types e).out) ((flattenImpl env e).finalize t none) ((c.flat code types e).finalize u none) := by
  obtain ⟨⟨_, rfl, hh, h1, h2⟩, hr⟩ := h
  have same := (same_of (F.enumAlike e) h1 h2).finalize none
  have h0 : Both (Final id (fun st : OEnum Val => st.cell) (enumRaw (env.enm e).ident ((eOf e).variants.map (oVariant types (c.payloadTy e)))).out)
      (enumFinalize (env.enm e).ident t none)
      ((enumRaw (env.enm e).ident ((eOf e).variants.map (oVariant types (c.payloadTy e)))).finalize t none) :=
    Both.mono (both_refl _) fun a b hab => by cases hab; exact ⟨rfl, fun _ => by simp [enumRaw]⟩
  have := final_alike h0 same
  change Both _ (enumFinalize (env.enm e).ident t none) ((c.eprg code types e).raw.finalize u none)
  rcases both_cases this with ⟨x, y, h3, h4⟩ | ⟨x, y, h3, h4, hxy⟩
  · rw [h3, h4]; trivial
  · rw [h3, h4]
    refine ⟨hxy.1, fun hk => ?_⟩
    have ho := hxy.2 hk
    show ((c.eprg code types e).raw.out y.1).map (variantVal (c.enm e)) = (x.1.cell.map enumVal).map id
    rw [ho]
    have hst := enumOk e hr
    unfold enumFinalize at h3
    split at h3
    · rename_i hi
      injection h3 with h3
      subst h3
      rcases hst with ⟨h5, _⟩ | ⟨_, i, v, p, h5, h6, _⟩
      · rw [h5] at hi; cases hi
      · simp only [h5, Option.map_some, Function.comp, id_eq, Option.some.injEq]
        exact variantVal_named F e i p (List.getElem?_eq_some_iff.mp h6).1
    · simp only at h3
      injection h3 with h3
      subst h3
      simp at hk

theorem field_at (F : Facts c code types env sOf eOf) (i p : Nat) :
    (openFields env i)[p]? = ((sOf i).fields[p]?).map (fun f => openField env (f.toField (c.means (c.fieldTy i f.ident)))) ∧
    ((sOf i).fields.map (oField types (c.fieldTy i)))[p]? = ((sOf i).fields[p]?).map (oField types (c.fieldTy i)) := by
  unfold openFields
  rw [F.structDef i, List.map_map, List.getElem?_map, List.getElem?_map]
  exact ⟨rfl, rfl⟩

theorem attrImpl_eq (o : Bool) (t : TextTy) : attrImpl o t = attrField o t := by
  unfold attrImpl attrField attrInit
  simp only [AttrImpl.mk.injEq, and_true]
  funext v
  cases t.parse v <;> rfl

theorem default_eq (F : Facts c code types env sOf eOf) (i : Nat) (f : MField) :
    (openField env (f.toField (c.means (c.fieldTy i f.ident)))).default = (oField types (c.fieldTy i) f).default := by
  unfold openField oField MField.toField
  simp only
  rw [F.tied]
  cases f.default <;> rfl

theorem slotMissing_eq (s : Slot) : (slotImpl env s).missing = (c.field code types s).missing := by
  unfold slotImpl Crate.field slotMissing
  simp only
  funext n
  cases s.card <;> rfl

theorem enum_new (e : Nat) : TE c code types env eOf e (flattenImpl env e).new (c.flat code types e).new :=
  ⟨⟨_, rfl, [], rfl, rfl⟩, [], rfl⟩

theorem fieldsFin (F : Facts c code types env sOf eOf) (i : Nat) :
    FieldsFin (TP c code types env sOf eOf i) (openFields env i) ((sOf i).fields.map (oField types (c.fieldTy i))) := by
  intro p
  rw [(field_at F i p).1, (field_at F i p).2]
  cases hp : (sOf i).fields[p]? with
  | none => trivial
  | some f =>
    have hm : f ∈ (sOf i).fields := List.mem_of_getElem? hp
    have hT := F.noText i f hm
    refine ⟨rfl, ?_, default_eq F i f⟩
    have hT' : ∀ t u, TP c code types env sOf eOf i p t u ↔ TE c code types env eOf (c.means (c.fieldTy i f.ident)).flatten t u := by
      intro t u; unfold TP; rw [hp]
    unfold openField oField MField.toField
    simp only
    rw [F.tied]
    cases h : f.mode with
    | element => exact .element (slotMissing_eq _)
    | «attribute» =>
      simp only [attrImpl_eq]
      exact .attribute
    | flatten =>
      refine .flatten ((hT' _ _).mpr (enum_new _)) (fun t t' ht => enum_final F _ ((hT' _ _).mp ht)) (fun _ _ => rfl) (fun _ _ => rfl)
    | text => exact absurd h hT

/-- Structs are finalized alike. -/
theorem struct_final (F : Facts c code types env sOf eOf) (i : Nat) {t : List (OCell (OEnum Val) Val)} {u : GState (GEState Val) Val}
    (h : TS c code types env sOf eOf i t u) :
    Both (Final id (structRaw (openFields env i)).out (c.prg code types i).raw.out) ((structRaw (openFields env i)).finalize t none)
      ((c.prg code types i).raw.finalize u none) := by
  obtain ⟨⟨t', ht, hh, h1, h2⟩, hr⟩ := h
  exact final_alike (finalizeCells_rel _ _ _ t t' (fieldsFin F i) ht) ((same_of (F.structAlike i) h1 h2).finalize none)

/-- A result, from what can be seen of it. -/
def asRet {α : Type} : Option (Except VErr α) → Ret VErr α
  | none => .panic
  | some (.error e) => .err e
  | some (.ok a) => .ok a

theorem ret_someOk {α : Type} (x : Except Fault (Except VErr α)) : ret x = asRet (someOk x) := by
  rcases x with _ | _ | _ <;> rfl

theorem finish_eq {σ σ' τ τ' α β : Type} {f : α → β} {raw : Raw σ τ α} {raw' : Raw σ' τ' β} {val : α → Val} {val' : β → Val} {t : τ} {t' : τ'}
    (h : Both (Final f raw.out raw'.out) (raw.finalize t none) (raw'.finalize t' none)) (hv : ∀ a x r, raw.finalize t none = .ok (x, r) → raw.out x = some a → val' (f a) = val a) :
    Gen.finish raw' val' t' = asRet (someFinal raw val t none) := by
  unfold Gen.finish someFinal
  rcases both_cases h with ⟨x, y, h3, h4⟩ | ⟨⟨x, r⟩, ⟨y, r'⟩, h3, h4, hr, ho⟩
  · rw [h3, h4]; rfl
  · rw [h3, h4]
    simp only at hr ho
    subst hr
    cases r with
    | ok u =>
      simp only
      rw [ho rfl]
      cases hx : raw.out x with
      | none => rfl
      | some a => simp only [Option.map_some, asRet, hv a x _ h3 hx]
    | err e => rfl
    | panic => rfl

theorem finish_rel (F : Facts c code types env sOf eOf) {x : DState} {y : GenState} (h : R c code types env sOf eOf x y) :
    ret (finalize env x) = c.finish code types y := by
  rw [ret_someOk]
  cases x with
  | strct i fs =>
    cases y with
    | enm => exact False.elim h
    | strct j g =>
      obtain ⟨rfl, t, rfl, hT⟩ := h
      obtain ⟨hh, hr⟩ := hT.2
      have := (C49_struct_agrees env i (textless F i) (unskipped F) hh t hr).2.2.2.2
      rw [this]
      exact (finish_eq (struct_final F i hT) fun _ _ _ _ _ => rfl).symm
  | enm e st =>
    cases y with
    | strct => exact False.elim h
    | enm e' u =>
      obtain ⟨rfl, t, rfl, hT⟩ := h
      obtain ⟨hh, hr⟩ := hT.2
      have := (C49_enum_agrees env e (unskipped F e) hh t hr).2.2.2.2
      simp only at this
      rw [this]
      have h1 := finish_eq (val := id) (val' := id) (enum_final F e hT) fun _ _ _ _ _ => rfl
      have h2 : Gen.finish (c.flat code types e) id u = c.finish code types (.enm e u) := by
        unfold Crate.finish Gen.finish Crate.flat
        simp only
        split
        · rename_i t' hf
          cases (c.eprg code types e).raw.out t' <;> rfl
        · rfl
        · rfl
      rw [← h2, h1]
      congr 1
      unfold someFinal flattenImpl
      simp only
      split
      · rename_i t' hf
        show (t'.cell).map _ = (t'.cell.map enumVal).map _
        cases t'.cell <;> rfl
      · rfl
      · rfl

theorem new_struct (F : Facts c code types env sOf eOf) (i : Nat) :
    R c code types env sOf eOf (newStruct env i) (.strct i (c.prg code types i).raw.new) := by
  rw [newStruct_open]
  exact ⟨rfl, _, rfl, ⟨_, new_rel (fieldsFin F i), [], rfl, rfl⟩, [], rfl⟩

theorem new_enum (e : Nat) : R c code types env sOf eOf (newEnum e) (.enm e (c.eprg code types e).raw.new) :=
  ⟨rfl, _, rfl, enum_new e⟩

theorem deser_rel (F : Facts c code types env sOf eOf) (ty : Ty) :
    ActRel (R c code types env sOf eOf) Eq ((deserTy env ty).map ret) (c.deser code types ty) := by
  cases ty with
  | text t =>
    intro r
    cases r with
    | error e => rfl
    | ok s =>
      simp only
      cases t.parse s <;> rfl
  | strct i =>
    refine ⟨new_struct F i, fun x x' hx r => ?_⟩
    cases r with
    | error e => rfl
    | ok s => exact finish_rel F hx
  | enm i =>
    refine ⟨new_enum i, fun x x' hx r => ?_⟩
    cases r with
    | error e => rfl
    | ok s => exact finish_rel F hx

theorem ActRel.of_map {σ σ' ρ ρ' ρ'' : Type} {R : σ → σ' → Prop} {Q : ρ'' → ρ' → Prop} {g : ρ → ρ''} {a : Action σ ρ} {a' : Action σ' ρ'} (h : ActRel R Q (a.map g) a') :
    ActRel R (fun x y => Q (g x) y) a a' := by
  cases a <;> cases a' <;> first | exact h | exact False.elim h

theorem impl_rel (F : Facts c code types env sOf eOf) (s : Slot) :
    ImplRel (R c code types env sOf eOf) (slotImpl env s) (c.field code types s) where
  init info := by
    show ActRel _ _ ((slotInit env s).map ret) ((c.deser code types s.ty).map _)
    unfold slotInit
    rw [map_map]
    refine ActRel.map (ActRel.of_map (deser_rel F s.ty)) _ _ ?_
    rintro r _ rfl
    rcases r with _ | _ | _ <;> rfl
  update v info := by
    show ActRel _ _ ((slotUpdate env s (some v) info.name.expanded).map _) ((c.field code types s).update v info)
    unfold slotUpdate Crate.field
    simp only
    cases hc : s.card with
    | one => rfl
    | opt => rfl
    | many =>
      simp only
      cases v with
      | vec l =>
        simp only
        rw [map_map]
        refine ActRel.map (ActRel.of_map (deser_rel F s.ty)) _ _ ?_
        rintro r _ rfl
        rcases r with _ | _ | _ <;> rfl
      | _ => rfl
  missing := slotMissing_eq s

/-! ### Visitors -/

theorem raw_enum (F : Facts c code types env sOf eOf) (e : Nat) :
    RawRel (R c code types env sOf eOf) (TE c code types env eOf e) (Gen.named (eOf e).variants ∘ id)
      (enumRaw (env.enm e).ident (openVariants env e)) (c.eprg code types e).raw := by
  refine RawRel.reached (RawRel.alike (enum_rel _ fun p => ?_) (F.enumAlike e) ⟨.ok "", .enm 0 (c.eprg code types 0).raw.new, .error (.wrap (.cantBeEmpty ""))⟩)
    ⟨.ok "", newEnum 0, .error (.wrap (.cantBeEmpty ""))⟩
  unfold openVariants
  rw [F.variants e, List.map_map, List.getElem?_map, List.getElem?_map]
  cases (eOf e).variants[p]? with
  | none => trivial
  | some w =>
    refine ⟨rfl, ?_⟩
    unfold oVariant
    simp only [Function.comp]
    rw [F.tied]
    cases w.payload with
    | false => trivial
    | true => exact impl_rel F _

theorem raw_flat (F : Facts c code types env sOf eOf) (e : Nat) :
    RawRel (R c code types env sOf eOf) (TE c code types env eOf e) id (flattenImpl env e) (c.flat code types e) where
  new := (raw_enum F e).new
  attr := (raw_enum F e).attr
  characters := (raw_enum F e).characters
  element := (raw_enum F e).element
  finalize t t' h := enum_final F e h

theorem fields (F : Facts c code types env sOf eOf) (i : Nat) :
    Fields (R c code types env sOf eOf) (TP c code types env sOf eOf i) (openFields env i) ((sOf i).fields.map (oField types (c.fieldTy i))) := by
  intro p
  rw [(field_at F i p).1, (field_at F i p).2]
  cases hp : (sOf i).fields[p]? with
  | none => trivial
  | some f =>
    have hm : f ∈ (sOf i).fields := List.mem_of_getElem? hp
    have hT := F.noText i f hm
    refine ⟨rfl, ?_, default_eq F i f⟩
    have hT' : TP c code types env sOf eOf i p = TE c code types env eOf (c.means (c.fieldTy i f.ident)).flatten := by
      funext t u; unfold TP; rw [hp]
    rw [hT']
    unfold openField oField MField.toField
    simp only
    rw [F.tied]
    cases h : f.mode with
    | element => exact .element (impl_rel F _)
    | «attribute» =>
      simp only [attrImpl_eq]
      exact .attribute
    | flatten => exact .flatten (raw_flat F _) (fun _ _ => rfl) (fun _ _ => rfl)
    | text => exact absurd h hT

theorem raw_struct (F : Facts c code types env sOf eOf) (i : Nat) :
    RawRel (R c code types env sOf eOf) (TS c code types env sOf eOf i) (id ∘ id) (structRaw (openFields env i)) (c.prg code types i).raw :=
  RawRel.reached (RawRel.alike (struct_rel (fields F i)) (F.structAlike i) ⟨.ok "", .enm 0 (c.eprg code types 0).raw.new, .error (.wrap (.cantBeEmpty ""))⟩)
    ⟨.ok "", newEnum 0, .error (.wrap (.cantBeEmpty ""))⟩

/-! ### As `read_to` sees them -/

theorem seen_attr {τ τ' ε : Type} {S : DState → GenState → Prop} {T : τ → τ' → Prop} {x : Except Fault (DState × Except ε Unit)}
    {y : Except Fault (τ × Ret ε (Option String))} {z : Except Fault (τ' × Ret ε (Option String))} {f : τ → DState} {g : τ' → GenState}
    (hx : someOk x = someAttr y f) (hy : Both (Step T) y z) (hT : ∀ t u, T t u → S (f t) (g u)) : Both (Step S) x (seenAttr g z) := by
  rcases both_cases hy with ⟨e, e', rfl, rfl⟩ | ⟨⟨t, r⟩, ⟨u, r'⟩, rfl, rfl, htu, hr⟩
  · cases x with
    | error e => trivial
    | ok x => simp [someOk, someAttr] at hx
  · simp only at hr
    subst hr
    cases r with
    | ok o =>
      cases x with
      | error e => simp [someOk, someAttr] at hx
      | ok x =>
        simp only [someOk, someAttr, Option.some.injEq] at hx
        subst hx
        exact ⟨hT _ _ htu, rfl⟩
    | err e =>
      cases x with
      | error e => simp [someOk, someAttr] at hx
      | ok x =>
        simp only [someOk, someAttr, Option.some.injEq] at hx
        subst hx
        exact ⟨hT _ _ htu, rfl⟩
    | panic =>
      cases x with
      | error e => trivial
      | ok x => simp [someOk, someAttr] at hx

theorem seen_ret {τ τ' : Type} {S : DState → GenState → Prop} {T : τ → τ' → Prop} {x : Except Fault (DState × Except VErr Unit)}
    {y : Except Fault (τ × Ret VErr Unit)} {z : Except Fault (τ' × Ret VErr Unit)} {f : τ → DState} {g : τ' → GenState}
    (hx : someOk x = someRet y f) (hy : Both (Step T) y z) (hT : ∀ t u, T t u → S (f t) (g u)) : Both (Step S) x (seenRet g z) := by
  rcases both_cases hy with ⟨e, e', rfl, rfl⟩ | ⟨⟨t, r⟩, ⟨u, r'⟩, rfl, rfl, htu, hr⟩
  · cases x with
    | error e => trivial
    | ok x => simp [someOk, someRet] at hx
  · simp only at hr
    subst hr
    cases r with
    | ok o =>
      cases x with
      | error e => simp [someOk, someRet] at hx
      | ok x =>
        simp only [someOk, someRet, Option.some.injEq] at hx
        subst hx
        exact ⟨hT _ _ htu, rfl⟩
    | err e =>
      cases x with
      | error e => simp [someOk, someRet] at hx
      | ok x =>
        simp only [someOk, someRet, Option.some.injEq] at hx
        subst hx
        exact ⟨hT _ _ htu, rfl⟩
    | panic =>
      cases x with
      | error e => trivial
      | ok x => simp [someOk, someRet] at hx

theorem seen_elem {τ τ' : Type} {S : DState → GenState → Prop} {T : τ → τ' → Prop} {a : Action DState (Except Fault (DState × Except VErr Unit))}
    {y : Except Fault (Offer DState τ)} {z : Except Fault (Offer GenState τ')} {f : τ → DState} {g : τ' → GenState}
    (ha : a.map someOk = someOffer y f) (hy : Both (OfferRel S T) y z) (hT : ∀ t u, T t u → S (f t) (g u)) :
    ActRel S (Both (Step S)) a (seenElem g z) := by
  rcases both_cases hy with ⟨e, e', rfl, rfl⟩ | ⟨o, o', rfl, rfl, ho⟩
  · cases a <;> simp only [Action.map, someOffer, Action.done.injEq, reduceCtorEq] at ha
    rename_i x
    cases x with
    | error e => trivial
    | ok x => simp [someOk] at ha
  · cases o with
    | back t =>
      cases o' with
      | take a => exact False.elim ho
      | back u =>
        cases a <;> simp only [Action.map, someOffer, Action.done.injEq, reduceCtorEq] at ha
        rename_i x
        cases x with
        | error e => simp [someOk] at ha
        | ok x =>
          simp only [someOk, Option.some.injEq] at ha
          subst ha
          exact ⟨hT _ _ ho, rfl⟩
    | take b =>
      cases o' with
      | back u => exact False.elim ho
      | take b' =>
        change ActRel S (Both (Step T)) b b' at ho
        show ActRel S _ a (b'.map (seenRet g))
        cases b <;> cases b' <;> (try exact False.elim ho) <;> cases a <;>
          simp only [Action.map, someOffer, Action.done.injEq, Action.readString.injEq, Action.readTo.injEq, reduceCtorEq] at ha
        · exact seen_ret ha ho hT
        · exact fun s => seen_ret (congrFun ha s) (ho s) hT
        · refine ⟨by rw [ha.1]; exact ho.1, fun x x' hx r => ?_⟩
          exact seen_ret (congrFun (congrFun ha.2 x) r) (ho.2 x x' hx r) hT

theorem vis_rel (F : Facts c code types env sOf eOf) : VisRel (R c code types env sOf eOf) (derivedVisitor env) (c.visitor code types) where
  attr x y h n v := by
    cases x with
    | strct i fs =>
      cases y with
      | enm => exact False.elim h
      | strct j g =>
        obtain ⟨rfl, t, rfl, hT⟩ := h
        obtain ⟨hh, hr⟩ := hT.2
        refine seen_attr ((C49_struct_agrees env i (textless F i) (unskipped F) hh t hr).2.1 n v) ((raw_struct F i).attr t g hT n v) fun t u h => ?_
        exact ⟨rfl, t, rfl, h⟩
    | enm e st =>
      cases y with
      | strct => exact False.elim h
      | enm e' u =>
        obtain ⟨rfl, t, rfl, hT⟩ := h
        obtain ⟨hh, hr⟩ := hT.2
        refine seen_attr ((C49_enum_agrees env e (unskipped F e) hh t hr).2.1 n v) ((raw_enum F e).attr t u hT n v) fun t u h => ?_
        exact ⟨rfl, t, rfl, h⟩
  chars x y h s pos := by
    cases x with
    | strct i fs =>
      cases y with
      | enm => exact False.elim h
      | strct j g =>
        obtain ⟨rfl, t, rfl, hT⟩ := h
        obtain ⟨hh, hr⟩ := hT.2
        refine seen_attr ((C49_struct_agrees env i (textless F i) (unskipped F) hh t hr).2.2.1 s pos) ((raw_struct F i).characters t g hT s pos) fun t u h => ?_
        exact ⟨rfl, t, rfl, h⟩
    | enm e st =>
      cases y with
      | strct => exact False.elim h
      | enm e' u =>
        obtain ⟨rfl, t, rfl, hT⟩ := h
        obtain ⟨hh, hr⟩ := hT.2
        refine seen_attr ((C49_enum_agrees env e (unskipped F e) hh t hr).2.2.1 s pos) ((raw_enum F e).characters t u hT s pos) fun t u h => ?_
        exact ⟨rfl, t, rfl, h⟩
  elem x y h info := by
    cases x with
    | strct i fs =>
      cases y with
      | enm => exact False.elim h
      | strct j g =>
        obtain ⟨rfl, t, rfl, hT⟩ := h
        obtain ⟨hh, hr⟩ := hT.2
        refine seen_elem ((C49_struct_agrees env i (textless F i) (unskipped F) hh t hr).2.2.2.1 info) ((raw_struct F i).element t g hT info) fun t u h => ?_
        exact ⟨rfl, t, rfl, h⟩
    | enm e st =>
      cases y with
      | strct => exact False.elim h
      | enm e' u =>
        obtain ⟨rfl, t, rfl, hT⟩ := h
        obtain ⟨hh, hr⟩ := hT.2
        refine seen_elem ((C49_enum_agrees env e (unskipped F e) hh t hr).2.2.2.1 info) ((raw_enum F e).element t u hT info) fun t u h => ?_
        exact ⟨rfl, t, rfl, h⟩

/-- The emitted code reads what the derived implementations read. -/
theorem read_rel (F : Facts c code types env sOf eOf) (dbg : Bool) (ty : Ty) (i : Input) :
    Both Eq (readTy dbg env ty i) (c.read code types dbg ty i) := by
  refine read_sim (vis_rel F) (fun info => ?_) dbg i
  have h := ActRel.of_map (deser_rel F ty)
  have := ActRel.map (Q' := Both Eq) h id returned (by
    rintro r _ rfl
    rcases r with _ | _ | _
    · trivial
    · rfl
    · rfl)
  have he : ∀ a : Action DState (Except Fault (Except VErr Val)), a.map id = a := by intro a; cases a <;> rfl
  rw [he] at this
  exact this

end

end SX.Whole
