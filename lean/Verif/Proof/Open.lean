import Verif.Spec.Open
import Verif.Proof.DeriveDe

/-
Lemmas about the generated visitors with fields of arbitrary types.
-/
namespace SX.Open
open SX.Spec.Open

variable {σ τ α : Type}

/-! ## Actions and histories -/

theorem give_map {ρ ρ' : Type} (s : Supply σ) (a : Action σ ρ) (f : ρ → ρ') : give s (a.map f) = f (give s a) := by
  cases a <;> rfl

theorem run_snoc (r : Raw σ τ α) (h : List (Call σ)) (c : Call σ) (t : τ) :
    run r (h ++ [c]) t = match run r h t with
      | .error f => .error f
      | .ok t => step r t c := by
  induction h generalizing t with
  | nil =>
    show run r [c] t = step r t c
    unfold run
    cases step r t c <;> rfl
  | cons d h ih =>
    show run r (d :: (h ++ [c])) t = _
    unfold run
    cases step r t d with
    | error f => rfl
    | ok t => exact ih t

theorem sound_step {r : Raw σ τ α} (hr : Sound r) {h : List (Call σ)} {t : τ} (ht : run r h r.new = .ok t) (c : Call σ) :
    ∃ t', step r t c = .ok t' ∧ run r (h ++ [c]) r.new = .ok t' := by
  obtain ⟨t', h1, -⟩ := hr (h ++ [c])
  have h2 := run_snoc r h c r.new
  rw [ht, h1] at h2
  exact ⟨t', h2.symm, h1⟩

/-- A visitor state that can be reached by calls. -/
def Reached (r : Raw σ τ α) (t : τ) : Prop := ∃ h, run r h r.new = .ok t

theorem sound_element {r : Raw σ τ α} (hr : Sound r) {t : τ} (ht : Reached r t) (info : ElemInfo) (s : Supply σ) :
    (∃ t', r.element t info = .ok (.back t') ∧ Reached r t') ∨
    ∃ a t' x, r.element t info = .ok (.take a) ∧ give s a = .ok (t', x) ∧ Reached r t' := by
  obtain ⟨h, ht⟩ := ht
  obtain ⟨t', h1, h2⟩ := sound_step hr ht (.elem info s)
  unfold Spec.Open.step at h1
  simp only at h1
  cases he : r.element t info with
  | error f => rw [he] at h1; exact nomatch h1
  | ok o =>
    rw [he] at h1
    cases o with
    | back t'' =>
      simp only [Except.ok.injEq] at h1
      exact .inl ⟨t'', rfl, _, h1 ▸ h2⟩
    | take a =>
      simp only at h1
      cases ha : give s a with
      | error f => rw [ha] at h1; exact nomatch h1
      | ok x =>
        rw [ha] at h1
        have : x.1 = t' := by simpa [Except.map] using h1
        exact .inr ⟨a, x.1, x.2, rfl, ha, _, this ▸ h2⟩

theorem sound_attr {r : Raw σ τ α} (hr : Sound r) {t : τ} (ht : Reached r t) (n : EName) (v : String) :
    ∃ t' x, r.attr t n v = .ok (t', x) ∧ Reached r t' := by
  obtain ⟨h, ht⟩ := ht
  obtain ⟨t', h1, h2⟩ := sound_step hr ht (.attr n v)
  unfold Spec.Open.step at h1
  simp only at h1
  cases ha : r.attr t n v with
  | error f => rw [ha] at h1; exact nomatch h1
  | ok x =>
    rw [ha] at h1
    have : x.1 = t' := by simpa [Except.map] using h1
    exact ⟨x.1, x.2, rfl, _, this ▸ h2⟩

theorem sound_characters {r : Raw σ τ α} (hr : Sound r) {t : τ} (ht : Reached r t) (v : String) (pos : Pos) :
    ∃ t' x, r.characters t v pos = .ok (t', x) ∧ Reached r t' := by
  obtain ⟨h, ht⟩ := ht
  obtain ⟨t', h1, h2⟩ := sound_step hr ht (.chars v pos)
  unfold Spec.Open.step at h1
  simp only at h1
  cases ha : r.characters t v pos with
  | error f => rw [ha] at h1; exact nomatch h1
  | ok x =>
    rw [ha] at h1
    have : x.1 = t' := by simpa [Except.map] using h1
    exact ⟨x.1, x.2, rfl, _, this ▸ h2⟩

theorem sound_finalize {r : Raw σ τ α} (hr : Sound r) {t : τ} (ht : Reached r t) (d : Option (Ret Empty α)) :
    ∃ t' res, r.finalize t d = .ok (t', res) ∧ (res = .ok () → ∃ v, r.out t' = some v) := by
  obtain ⟨h, ht⟩ := ht
  obtain ⟨t', h1, h2⟩ := hr h
  rw [ht] at h1
  cases h1
  exact h2 d

/-- A contract that holds by an invariant. -/
theorem sound_of_invariant {r : Raw σ τ α} (I : τ → Prop) (hn : I r.new)
    (hs : ∀ t c, I t → ∃ t', step r t c = .ok t' ∧ I t')
    (hf : ∀ t d, I t → ∃ t' res, r.finalize t d = .ok (t', res) ∧ (res = .ok () → ∃ v, r.out t' = some v)) : Sound r := by
  have key : ∀ (h : List (Call σ)) t, I t → ∃ t', run r h t = .ok t' ∧ I t' := by
    intro h
    induction h with
    | nil => exact fun t ht => ⟨t, rfl, ht⟩
    | cons c h ih =>
      intro t ht
      obtain ⟨t', h1, h2⟩ := hs t c ht
      unfold run
      rw [h1]
      exact ih t' h2
  intro h
  obtain ⟨t, h1, h2⟩ := key h _ hn
  exact ⟨t, h1, fun d => hf t d h2⟩

/-! ## Lookups -/

/-- A field of the closed model with the same name and mode. -/
def shadow (f : OField σ τ α) : Field :=
  { name := f.name
    kind := match f.kind with
      | .element _ => .element ⟨.one, .text .bool⟩
      | .attribute _ => .attribute false .bool
      | .flatten _ => .flatten 0
    default := none }

theorem elemNames_shadow (fields : List (OField σ τ α)) (k : Nat) :
    elemNames fields k = SX.elemNames (fields.map shadow) k := by
  induction fields generalizing k with
  | nil => rfl
  | cons f fs ih =>
    rw [List.map_cons]
    unfold elemNames SX.elemNames
    rw [ih]
    cases hk : f.kind <;> simp [shadow, hk]

theorem attrNames_shadow (fields : List (OField σ τ α)) (k : Nat) :
    attrNames fields k = SX.attrNames (fields.map shadow) k := by
  induction fields generalizing k with
  | nil => rfl
  | cons f fs ih =>
    rw [List.map_cons]
    unfold attrNames SX.attrNames
    rw [ih]
    cases hk : f.kind <;> simp [shadow, hk]

theorem lookup_elem (fields : List (OField σ τ α)) (n : EName) :
    (∃ p f impl, lookup n (structTable (elemNames fields 0)) = .ok (some p) ∧ fields[p]? = some f ∧
      f.kind = .element impl ∧ f.name.expanded = n) ∨
    (lookup n (structTable (elemNames fields 0)) = .ok none ∧
      ∀ f ∈ fields, ∀ impl, f.kind = .element impl → f.name.expanded ≠ n) := by
  rw [elemNames_shadow]
  rcases SX.lookup_elem (fields.map shadow) n with ⟨p, g, s, h1, h2, h3, h4⟩ | ⟨h1, h2⟩
  · left
    rw [List.getElem?_map] at h2
    obtain ⟨f, hf, rfl⟩ := Option.map_eq_some_iff.mp h2
    cases hk : f.kind with
    | element impl => exact ⟨p, f, impl, h1, hf, hk, h4⟩
    | «attribute» i => simp [shadow, hk] at h3
    | flatten r => simp [shadow, hk] at h3
  · right
    refine ⟨h1, fun f hf impl hk hn => ?_⟩
    unfold Spec.declaredElem at h2
    rw [List.any_eq_false] at h2
    have := h2 _ (List.mem_map_of_mem hf)
    simp [shadow, hk, hn] at this

theorem lookup_attr (fields : List (OField σ τ α)) (n : EName) :
    (∃ p f impl, lookup n (structTable (attrNames fields 0)) = .ok (some p) ∧ fields[p]? = some f ∧
      f.kind = .attribute impl ∧ f.name.expanded = n) ∨
    (lookup n (structTable (attrNames fields 0)) = .ok none ∧
      ∀ f ∈ fields, ∀ impl, f.kind = .attribute impl → f.name.expanded ≠ n) := by
  rw [attrNames_shadow]
  rcases SX.lookup_attr (fields.map shadow) n with ⟨p, g, o, s, h1, h2, h3, h4⟩ | ⟨h1, h2⟩
  · left
    rw [List.getElem?_map] at h2
    obtain ⟨f, hf, rfl⟩ := Option.map_eq_some_iff.mp h2
    cases hk : f.kind with
    | element impl => simp [shadow, hk] at h3
    | «attribute» i => exact ⟨p, f, i, h1, hf, hk, h4⟩
    | flatten r => simp [shadow, hk] at h3
  · right
    refine ⟨h1, fun f hf impl hk hn => ?_⟩
    exact h2 _ (List.mem_map_of_mem hf) false .bool (by simp [shadow, hk]) hn

theorem flatPos_mem (fields : List (OField σ τ α)) (k p : Nat) (h : p ∈ flatPos fields k) :
    ∃ f raw, k ≤ p ∧ fields[p - k]? = some f ∧ f.kind = .flatten raw := by
  induction fields generalizing k with
  | nil => simp [flatPos] at h
  | cons f fs ih =>
    unfold flatPos at h
    have next : p ∈ flatPos fs (k + 1) → ∃ g raw, k ≤ p ∧ (f :: fs)[p - k]? = some g ∧ g.kind = .flatten raw := by
      intro h
      obtain ⟨g, raw, h1, h2, h3⟩ := ih _ h
      refine ⟨g, raw, by omega, ?_, h3⟩
      rw [show p - k = (p - (k + 1)) + 1 by omega, List.getElem?_cons_succ]
      exact h2
    split at h
    · rename_i raw hk
      rcases List.mem_cons.mp h with h | h
      · exact ⟨f, raw, by omega, by simp [h], hk⟩
      · exact next h
    · exact next h

/-! ## Structs -/

/-- The invariant of a field's memory: the flag says whether it is initialized. -/
def CellOk (f : OField σ τ α) (c : OCell τ α) : Prop :=
  match f.kind with
  | .flatten raw => ∃ t, c = .flat t ∧ Reached raw t
  | _ => ∃ cell, c = .plain cell.isSome cell

def CellsOk : List (OField σ τ α) → List (OCell τ α) → Prop
  | [], [] => True
  | f :: fs, c :: cs => CellOk f c ∧ CellsOk fs cs
  | _, _ => False

theorem CellsOk.get {fields : List (OField σ τ α)} {fs : List (OCell τ α)} (h : CellsOk fields fs) {p : Nat}
    {f : OField σ τ α} (hp : fields[p]? = some f) : ∃ c, fs[p]? = some c ∧ CellOk f c := by
  induction fields generalizing fs p with
  | nil => simp at hp
  | cons g gs ih =>
    cases fs with
    | nil => exact h.elim
    | cons c cs =>
      cases p with
      | zero => simp at hp; subst hp; exact ⟨c, rfl, h.1⟩
      | succ p => simpa using ih h.2 (by simpa using hp)

theorem CellsOk.set {fields : List (OField σ τ α)} {fs : List (OCell τ α)} (h : CellsOk fields fs) {p : Nat}
    {f : OField σ τ α} (hp : fields[p]? = some f) {c : OCell τ α} (hc : CellOk f c) : CellsOk fields (fs.set p c) := by
  induction fields generalizing fs p with
  | nil => simp at hp
  | cons g gs ih =>
    cases fs with
    | nil => exact h.elim
    | cons c' cs =>
      cases p with
      | zero => simp at hp; subst hp; exact ⟨hc, h.2⟩
      | succ p => exact ⟨h.1, ih h.2 (by simpa using hp)⟩

/-- The flattened fields keep their contracts. -/
def FlatSound (fields : List (OField σ τ α)) : Prop := ∀ f ∈ fields, ∀ raw, f.kind = .flatten raw → Sound raw

theorem cellsOk_new (fields : List (OField σ τ α)) : CellsOk fields (fields.map newCell) := by
  induction fields with
  | nil => trivial
  | cons f fs ih =>
    refine ⟨?_, ih⟩
    unfold CellOk newCell
    cases f.kind with
    | element i => exact ⟨none, rfl⟩
    | «attribute» i => exact ⟨none, rfl⟩
    | flatten raw => exact ⟨raw.new, rfl, [], rfl⟩

theorem delegateElement_ok {fields : List (OField σ τ α)} (hF : FlatSound fields) (info : ElemInfo) (s : Supply σ)
    (ps : List Nat) (hps : ∀ p ∈ ps, ∃ f raw, fields[p]? = some f ∧ f.kind = .flatten raw)
    (fs : List (OCell τ α)) (h : CellsOk fields fs) :
    (∃ fs', delegateElement fields info ps fs = .ok (.back fs') ∧ CellsOk fields fs') ∨
    ∃ a fs' x, delegateElement fields info ps fs = .ok (.take a) ∧ give s a = .ok (fs', x) ∧ CellsOk fields fs' := by
  induction ps generalizing fs with
  | nil => exact .inl ⟨fs, rfl, h⟩
  | cons p ps ih =>
    obtain ⟨f, raw, hf, hk⟩ := hps p (by simp)
    obtain ⟨c, hc, hok⟩ := h.get hf
    have hok' := hok
    unfold CellOk at hok'
    rw [hk] at hok'
    obtain ⟨t, rfl, ht⟩ := hok'
    obtain ⟨nm, kd, df⟩ := f
    simp only at hk
    subst hk
    unfold delegateElement
    rw [hf, hc]
    simp only
    rcases sound_element (hF _ (List.mem_of_getElem? hf) raw rfl) ht info s with ⟨t', h1, h2⟩ | ⟨a, t', x, h1, h2, h3⟩
    · rw [h1]
      exact ih (fun q hq => hps q (by simp [hq])) _ (h.set hf ⟨t', rfl, h2⟩)
    · rw [h1]
      refine .inr ⟨_, fs.set p (.flat t'), x, rfl, ?_, h.set hf ⟨t', rfl, h3⟩⟩
      rw [give_map, h2]
      rfl

theorem delegateAttribute_ok {fields : List (OField σ τ α)} (hF : FlatSound fields) (n : EName)
    (ps : List Nat) (hps : ∀ p ∈ ps, ∃ f raw, fields[p]? = some f ∧ f.kind = .flatten raw)
    (fs : List (OCell τ α)) (h : CellsOk fields fs) (v : String) :
    ∃ fs' x, delegateAttribute fields n ps fs v = .ok (fs', x) ∧ CellsOk fields fs' := by
  induction ps generalizing fs v with
  | nil => exact ⟨fs, _, rfl, h⟩
  | cons p ps ih =>
    obtain ⟨f, raw, hf, hk⟩ := hps p (by simp)
    obtain ⟨c, hc, hok⟩ := h.get hf
    have hok' := hok
    unfold CellOk at hok'
    rw [hk] at hok'
    obtain ⟨t, rfl, ht⟩ := hok'
    obtain ⟨nm, kd, df⟩ := f
    simp only at hk
    subst hk
    unfold delegateAttribute
    rw [hf, hc]
    simp only
    obtain ⟨t', x, h1, h2⟩ := sound_attr (hF _ (List.mem_of_getElem? hf) raw rfl) ht n v
    rw [h1]
    split
    · rename_i heq; exact nomatch heq
    · rename_i heq
      cases heq
      exact ih (fun q hq => hps q (by simp [hq])) _ (h.set hf ⟨t', rfl, h2⟩) _
    · rename_i heq
      cases heq
      exact ⟨_, _, rfl, h.set hf ⟨t', rfl, h2⟩⟩

theorem delegateCharacters_ok {fields : List (OField σ τ α)} (hF : FlatSound fields) (pos : Pos)
    (ps : List Nat) (hps : ∀ p ∈ ps, ∃ f raw, fields[p]? = some f ∧ f.kind = .flatten raw)
    (fs : List (OCell τ α)) (h : CellsOk fields fs) (v : String) :
    ∃ fs' x, delegateCharacters fields pos ps fs v = .ok (fs', x) ∧ CellsOk fields fs' := by
  induction ps generalizing fs v with
  | nil => exact ⟨fs, _, rfl, h⟩
  | cons p ps ih =>
    obtain ⟨f, raw, hf, hk⟩ := hps p (by simp)
    obtain ⟨c, hc, hok⟩ := h.get hf
    have hok' := hok
    unfold CellOk at hok'
    rw [hk] at hok'
    obtain ⟨t, rfl, ht⟩ := hok'
    obtain ⟨nm, kd, df⟩ := f
    simp only at hk
    subst hk
    unfold delegateCharacters
    rw [hf, hc]
    simp only
    obtain ⟨t', x, h1, h2⟩ := sound_characters (hF _ (List.mem_of_getElem? hf) raw rfl) ht v pos
    rw [h1]
    split
    · rename_i heq; exact nomatch heq
    · rename_i heq
      cases heq
      exact ih (fun q hq => hps q (by simp [hq])) _ (h.set hf ⟨t', rfl, h2⟩) _
    · rename_i heq
      cases heq
      exact ⟨_, _, rfl, h.set hf ⟨t', rfl, h2⟩⟩

theorem flatPos_spec (fields : List (OField σ τ α)) :
    ∀ p ∈ flatPos fields 0, ∃ f raw, fields[p]? = some f ∧ f.kind = .flatten raw := by
  intro p hp
  obtain ⟨f, raw, -, h1, h2⟩ := flatPos_mem fields 0 p hp
  exact ⟨f, raw, by simpa using h1, h2⟩

theorem structStep_ok {fields : List (OField σ τ α)} (hF : FlatSound fields) (fs : List (OCell τ α)) (c : Call σ)
    (h : CellsOk fields fs) : ∃ fs', step (structRaw fields) fs c = .ok fs' ∧ CellsOk fields fs' := by
  cases c with
  | attr n v =>
    show ∃ fs', (structAttribute fields fs n v).map Prod.fst = .ok fs' ∧ _
    unfold structAttribute
    rcases lookup_attr fields n with ⟨p, f, impl, h1, hf, hk, -⟩ | ⟨h1, -⟩
    · rw [h1]
      obtain ⟨c, hc, hok⟩ := h.get hf
      obtain ⟨nm, kd, df⟩ := f
      simp only at hk
      subst hk
      obtain ⟨cell, rfl⟩ := hok
      simp only [hf, hc]
      cases cell with
      | some v => exact ⟨fs, rfl, h⟩
      | none =>
        rw [if_neg (by simp)]
        cases impl.init v with
        | ok a => exact ⟨_, rfl, h.set hf ⟨some a, rfl⟩⟩
        | err e => exact ⟨fs, rfl, h⟩
        | panic => exact ⟨fs, rfl, h⟩
    · rw [h1]
      obtain ⟨fs', x, h2, h3⟩ := delegateAttribute_ok hF n _ (flatPos_spec fields) fs h v
      simp only [h2]
      exact ⟨fs', rfl, h3⟩
  | chars v pos =>
    show ∃ fs', (delegateCharacters fields pos (flatPos fields 0) fs v).map Prod.fst = .ok fs' ∧ _
    obtain ⟨fs', x, h2, h3⟩ := delegateCharacters_ok hF pos _ (flatPos_spec fields) fs h v
    rw [h2]
    exact ⟨fs', rfl, h3⟩
  | elem info s =>
    unfold step
    simp only
    rw [show (structRaw fields).element = structElement fields from rfl]
    unfold structElement
    rcases lookup_elem fields info.name.expanded with ⟨p, f, impl, h1, hf, hk, -⟩ | ⟨h1, -⟩
    · rw [h1]
      obtain ⟨c, hc, hok⟩ := h.get hf
      obtain ⟨nm, kd, df⟩ := f
      simp only at hk
      subst hk
      obtain ⟨cell, rfl⟩ := hok
      simp only [hf, hc]
      cases cell with
      | some v =>
        simp only [Option.isSome_some, if_true]
        rw [give_map]
        exact ⟨_, rfl, h.set hf ⟨some _, rfl⟩⟩
      | none =>
        rw [if_neg (by simp)]
        simp only
        rw [give_map]
        cases give s (impl.init info) with
        | ok a => exact ⟨_, rfl, h.set hf ⟨some a, rfl⟩⟩
        | err e => exact ⟨fs, rfl, h⟩
        | panic => exact ⟨fs, rfl, h⟩
    · rw [h1]
      rcases delegateElement_ok hF info s _ (flatPos_spec fields) fs h with ⟨fs', h2, h3⟩ | ⟨a, fs', x, h2, h3, h4⟩
      · simp only [h2]
        exact ⟨fs', rfl, h3⟩
      · simp only [h2, h3]
        exact ⟨fs', rfl, h4⟩

theorem finalizeCell_ok {f : OField σ τ α} {c : OCell τ α} (hF : ∀ raw, f.kind = .flatten raw → Sound raw) (h : CellOk f c) :
    ∃ c' r, finalizeCell f c = .ok (c', r) ∧ (r = .ok () → ∃ v, cellOut f c' = some v) := by
  obtain ⟨nm, kd, df⟩ := f
  cases kd with
  | flatten raw =>
    obtain ⟨t, rfl, ht⟩ := h
    obtain ⟨t', r, h1, h2⟩ := sound_finalize (hF raw rfl) ht df
    refine ⟨.flat t', r, ?_, h2⟩
    unfold finalizeCell
    simp only [h1]
    rfl
  | element impl =>
    obtain ⟨cell, rfl⟩ := h
    unfold finalizeCell finalizeCell.plain
    cases cell with
    | some v => exact ⟨_, _, rfl, fun _ => ⟨v, rfl⟩⟩
    | none =>
      simp only [Option.isSome_none]
      rw [if_neg (by simp)]
      cases df with
      | none =>
        cases impl.missing (DName.expanded nm) with
        | ok a => exact ⟨_, _, rfl, fun _ => ⟨a, rfl⟩⟩
        | err e => exact ⟨_, _, rfl, nofun⟩
        | panic => exact ⟨_, _, rfl, nofun⟩
      | some d =>
        cases d with
        | ok a => exact ⟨_, _, rfl, fun _ => ⟨a, rfl⟩⟩
        | err e => exact ⟨_, _, rfl, nofun⟩
        | panic => exact ⟨_, _, rfl, nofun⟩
  | «attribute» impl =>
    obtain ⟨cell, rfl⟩ := h
    unfold finalizeCell finalizeCell.plain
    cases cell with
    | some v => exact ⟨_, _, rfl, fun _ => ⟨v, rfl⟩⟩
    | none =>
      simp only [Option.isSome_none]
      rw [if_neg (by simp)]
      cases df with
      | none =>
        cases impl.missing (DName.expanded nm) with
        | ok a => exact ⟨_, _, rfl, fun _ => ⟨a, rfl⟩⟩
        | err e => exact ⟨_, _, rfl, nofun⟩
        | panic => exact ⟨_, _, rfl, nofun⟩
      | some d =>
        cases d with
        | ok a => exact ⟨_, _, rfl, fun _ => ⟨a, rfl⟩⟩
        | err e => exact ⟨_, _, rfl, nofun⟩
        | panic => exact ⟨_, _, rfl, nofun⟩

theorem finalizeCells_ok {fields : List (OField σ τ α)} (hF : FlatSound fields) {fs : List (OCell τ α)} (h : CellsOk fields fs) :
    ∃ fs' r, finalizeCells fields fs = .ok (fs', r) ∧ (r = .ok () → ∃ vs, structOut fields fs' = some vs) := by
  induction fields generalizing fs with
  | nil => exact ⟨[], _, rfl, fun _ => ⟨[], rfl⟩⟩
  | cons f fields ih =>
    cases fs with
    | nil => exact h.elim
    | cons c fs =>
      obtain ⟨c', r, h1, h2⟩ := finalizeCell_ok (fun raw hk => hF f (by simp) raw hk) h.1
      unfold finalizeCells
      rw [h1]
      cases r with
      | ok u =>
        obtain ⟨v, hv⟩ := h2 rfl
        obtain ⟨fs', r, h3, h4⟩ := ih (fun g hg => hF g (by simp [hg])) h.2
        simp only [h3]
        refine ⟨c' :: fs', r, rfl, fun hr => ?_⟩
        obtain ⟨vs, hvs⟩ := h4 hr
        exact ⟨v :: vs, by unfold structOut; rw [hv, hvs]⟩
      | err e => exact ⟨_, _, rfl, nofun⟩
      | panic => exact ⟨_, _, rfl, nofun⟩

theorem structRaw_sound {fields : List (OField σ τ α)} (hF : FlatSound fields) : Sound (structRaw fields) :=
  sound_of_invariant (CellsOk fields) (cellsOk_new fields) (fun fs c h => structStep_ok hF fs c h)
    (fun _ _ h => finalizeCells_ok hF h)

/-! ## Enums -/

/-- The invariant of an enum's memory. -/
def EnumOk (vs : List (OVariant σ α)) (st : OEnum α) : Prop :=
  (st.initialized = false ∧ st.cell = none) ∨
  (st.initialized = true ∧ ∃ i v p, st.cell = some (i, p) ∧ vs[i]? = some v ∧ p.isSome = v.payload.isSome)

theorem variantNames_mem (vs : List (OVariant σ α)) (k p : Nat) (nm : DName) :
    (p, nm) ∈ variantNames vs k → ∃ v, k ≤ p ∧ vs[p - k]? = some v ∧ v.name = nm := by
  induction vs generalizing k with
  | nil => simp [variantNames]
  | cons v vs ih =>
    intro h
    rcases List.mem_cons.mp h with h | h
    · cases h
      exact ⟨v, Nat.le_refl _, by simp, rfl⟩
    · obtain ⟨w, h1, h2, h3⟩ := ih _ h
      refine ⟨w, by omega, ?_, h3⟩
      rw [show p - k = (p - (k + 1)) + 1 by omega, List.getElem?_cons_succ]
      exact h2

theorem lookup_variant_pos {vs : List (OVariant σ α)} {n : EName} {p : Nat}
    (h : lookup n (enumTable (variantNames vs 0)) = .ok (some p)) : ∃ v, vs[p]? = some v := by
  have h1 := ((enumTable_perm (variantNames vs 0)).map Prod.fst).mem_iff.mp (lookup_mem h)
  simp only [List.map_map, List.mem_map, Function.comp] at h1
  obtain ⟨⟨q, nm⟩, h2, h3⟩ := h1
  obtain ⟨v, -, h4, -⟩ := variantNames_mem _ _ _ _ h2
  simp only at h3
  exact ⟨v, by simpa [h3] using h4⟩

theorem enumElement_ok (vs : List (OVariant σ α)) (st : OEnum α) (info : ElemInfo) (s : Supply σ) (h : EnumOk vs st) :
    (enumElement vs st info = .ok (.back st)) ∨
    ∃ a st' x, enumElement vs st info = .ok (.take a) ∧ give s a = .ok (st', x) ∧ EnumOk vs st' := by
  obtain ⟨found, hl⟩ := lookup_total (enumTable (variantNames vs 0)) info.name.expanded
  unfold enumElement
  rw [hl]
  obtain ⟨ini, cell⟩ := st
  rcases h with ⟨h1, h2⟩ | ⟨h1, i, v, p, h2, h3, h4⟩
  · simp only at h1 h2
    subst h1 h2
    simp only
    rw [if_neg (by simp)]
    cases found with
    | none => exact .inl rfl
    | some i =>
      obtain ⟨v, hv⟩ := lookup_variant_pos hl
      simp only [hv]
      right
      cases hp : v.payload with
      | none => exact ⟨_, _, _, rfl, rfl, .inr ⟨rfl, i, v, none, rfl, hv, by rw [hp]; rfl⟩⟩
      | some impl =>
        simp only
        cases hg : give s (impl.init info) with
        | ok a => exact ⟨_, _, _, rfl, by rw [give_map, hg]; rfl, .inr ⟨rfl, i, v, some a, rfl, hv, by rw [hp]; rfl⟩⟩
        | err e => exact ⟨_, _, _, rfl, by rw [give_map, hg], .inl ⟨rfl, rfl⟩⟩
        | panic => exact ⟨_, _, _, rfl, by rw [give_map, hg], .inl ⟨rfl, rfl⟩⟩
  · simp only at h1 h2
    subst h1 h2
    simp only [if_true, h3]
    right
    by_cases hf : found = some i
    · rw [if_pos hf]
      cases hp : v.payload with
      | none =>
        rw [hp] at h4
        cases p with
        | some x => simp at h4
        | none => exact ⟨_, _, _, rfl, rfl, .inr ⟨rfl, i, v, none, rfl, h3, by rw [hp]; rfl⟩⟩
      | some impl =>
        rw [hp] at h4
        cases p with
        | none => simp at h4
        | some x =>
          simp only
          exact ⟨_, _, _, rfl, by rw [give_map], .inr ⟨rfl, i, v, some _, rfl, h3, by rw [hp]; rfl⟩⟩
    · rw [if_neg hf]
      cases found with
      | none => exact ⟨_, _, _, rfl, rfl, .inr ⟨rfl, i, v, p, rfl, h3, h4⟩⟩
      | some j => exact ⟨_, _, _, rfl, rfl, .inr ⟨rfl, i, v, p, rfl, h3, h4⟩⟩

theorem enumRaw_sound (ident : String) (vs : List (OVariant σ α)) : Sound (enumRaw ident vs) := by
  refine sound_of_invariant (EnumOk vs) (.inl ⟨rfl, rfl⟩) ?_ ?_
  · intro st c h
    cases c with
    | attr n v => exact ⟨st, rfl, h⟩
    | chars v pos => exact ⟨st, rfl, h⟩
    | elem info s =>
      unfold step
      simp only
      rw [show (enumRaw ident vs).element = enumElement vs from rfl]
      rcases enumElement_ok vs st info s h with h1 | ⟨a, st', x, h1, h2, h3⟩
      · rw [h1]
        exact ⟨st, rfl, h⟩
      · simp only [h1, h2]
        exact ⟨st', rfl, h3⟩
  · intro st d h
    show ∃ t' res, enumFinalize ident st d = .ok (t', res) ∧ (res = .ok () → ∃ v, t'.cell = some v)
    unfold enumFinalize
    obtain ⟨ini, cell⟩ := st
    rcases h with ⟨h1, h2⟩ | ⟨h1, i, v, p, h2, -⟩
    · simp only at h1 h2
      subst h1 h2
      rw [if_neg (by simp)]
      cases d with
      | none => exact ⟨_, _, rfl, nofun⟩
      | some d =>
        cases d with
        | ok a => exact ⟨_, _, rfl, fun _ => ⟨a, rfl⟩⟩
        | err e => exact ⟨_, _, rfl, nofun⟩
        | panic => exact ⟨_, _, rfl, nofun⟩
    · simp only at h1 h2
      subst h1 h2
      exact ⟨_, _, rfl, fun _ => ⟨_, rfl⟩⟩

end SX.Open
