import Verif.Spec.LocalRead

namespace SX.LocalRead
open SX.Spec

/-- The same for all children of the name `n`. -/
def Const {α : Type} (n : EName) (F : Kid → α) : Prop := ∃ r, ∀ k, k.name = n → F k = r

/-- The same for all children of the name `n`, or the child's value as some type at one place. -/
def Local (n : EName) (F : Kid → Option Val) : Prop := Const n F ∨ ∃ ty C, Place C ∧ ∀ k, k.name = n → F k = (k.as ty).map C

/-- A list with the child in it, or without. -/
def Split (n : EName) (G : Kid → List Kid) : Prop := Const n G ∨ ∃ a b, ∀ k, k.name = n → G k = a ++ k :: b

/-- A condition on names only. -/
def ByName (p : Kid → Bool) : Prop := ∀ k k', k.name = k'.name → p k = p k'

theorem Const.comp {α β : Type} {n : EName} {F : Kid → α} (h : Const n F) (g : α → β) : Const n fun k => g (F k) := by
  obtain ⟨r, h⟩ := h
  exact ⟨g r, fun k hk => by (try dsimp only); rw [h k hk]⟩

theorem place_comp {C D : Val → Val} (hC : Place C) (hD : Place D) : Place fun w => C (D w) := by
  induction hC with
  | here => exact hD
  | field a b _ ih => exact .field a b ih
  | payload i _ ih => exact .payload i ih
  | opt _ ih => exact .opt ih
  | item a b _ ih => exact .item a b ih

theorem Local.map {n : EName} {F : Kid → Option Val} (h : Local n F) {C : Val → Val} (hC : Place C) : Local n fun k => (F k).map C := by
  rcases h with h | ⟨ty, D, hD, h⟩
  · exact .inl (h.comp _)
  · exact .inr ⟨ty, _, place_comp hC hD, fun k hk => by (try dsimp only); rw [h k hk]; simp [Function.comp_def]⟩

theorem filter_split {n : EName} {G : Kid → List Kid} (h : Split n G) {p : Kid → Bool} (hp : ByName p) : Split n fun k => (G k).filter p := by
  rcases h with h | ⟨a, b, h⟩
  · exact .inl (h.comp _)
  · by_cases hx : ∃ k, k.name = n ∧ p k = true
    · obtain ⟨k, hk, hpk⟩ := hx
      refine .inr ⟨a.filter p, b.filter p, fun k' hk' => ?_⟩
      simp [h k' hk', List.filter_cons, (hp k' k (by rw [hk, hk'])).trans hpk]
    · refine .inl ⟨a.filter p ++ b.filter p, fun k hk => ?_⟩
      have : p k = false := by
        cases hpk : p k with
        | false => rfl
        | true => exact absurd ⟨k, hk, hpk⟩ hx
      simp [h k hk, List.filter_cons, this]

theorem takeWhile_split {n : EName} {G : Kid → List Kid} (h : Split n G) {p : Kid → Bool} (hp : ByName p) : Split n fun k => (G k).takeWhile p := by
  rcases h with h | ⟨a, b, h⟩
  · exact .inl (h.comp _)
  · by_cases hx : (∃ k, k.name = n ∧ p k = true) ∧ a.all p = true
    · obtain ⟨⟨k, hk, hpk⟩, ha⟩ := hx
      refine .inr ⟨a, b.takeWhile p, fun k' hk' => ?_⟩
      (try dsimp only); rw [h k' hk']
      rw [List.takeWhile_append_of_pos (by simpa using ha), List.takeWhile_cons, (hp k' k (by rw [hk, hk'])).trans hpk]
      rfl
    · refine .inl ⟨a.takeWhile p, fun k hk => ?_⟩
      (try dsimp only); rw [h k hk]
      by_cases ha : a.all p = true
      · have : p k = false := by
          cases hpk : p k with
          | false => rfl
          | true => exact absurd ⟨⟨k, hk, hpk⟩, ha⟩ hx
        rw [List.takeWhile_append_of_pos (by simpa using ha), List.takeWhile_cons, this]
        have := List.takeWhile_append_of_pos (p := p) (l₁ := a) (l₂ := []) (by simpa using ha)
        simpa using this.symm
      · clear h hx
        induction a with
        | nil => simp at ha
        | cons y a ih =>
          simp only [List.cons_append, List.takeWhile_cons]
          cases hy : p y with
          | false => rfl
          | true => simp only [if_true, ih (by simpa [hy] using ha)]

theorem takeWhile_const {n : EName} {G : Kid → List Kid} (h : Split n G) {p : Kid → Bool} (hp : ∀ k, k.name = n → p k = false) :
    Const n fun k => (G k).takeWhile p := by
  rcases h with h | ⟨a, b, h⟩
  · exact h.comp _
  · refine ⟨a.takeWhile p, fun k hk => ?_⟩
    (try dsimp only); rw [h k hk]
    clear h
    induction a with
    | nil => simp [List.takeWhile_cons, hp k hk]
    | cons y a ih =>
      simp only [List.cons_append, List.takeWhile_cons]
      cases p y with
      | false => rfl
      | true => simp only [if_true, ih]

theorem filter_const {n : EName} {G : Kid → List Kid} (h : Split n G) {p : Kid → Bool} (hp : ∀ k, k.name = n → p k = false) :
    Const n fun k => (G k).filter p := by
  rcases h with h | ⟨a, b, h⟩
  · exact h.comp _
  · exact ⟨a.filter p ++ b.filter p, fun k hk => by simp [h k hk, List.filter_cons, hp k hk]⟩

theorem allAs_append (ty : Ty) (a b : List Kid) : allAs ty (a ++ b) = (allAs ty a).bind fun x => (allAs ty b).map fun y => x ++ y := by
  induction a with
  | nil => simp [allAs]
  | cons k a ih =>
    simp only [List.cons_append, allAs, ih]
    cases k.as ty with
    | none => simp
    | some v =>
      cases allAs ty a with
      | none => simp
      | some x =>
        cases allAs ty b with
        | none => simp
        | some y => simp

theorem vec_local (n : EName) (ty : Ty) (a b : List Kid) : Local n fun k => (allAs ty (a ++ k :: b)).map .vec := by
  cases ha : allAs ty a with
  | none => exact .inl ⟨none, fun k _ => by simp [allAs_append, ha]⟩
  | some x =>
    cases hb : allAs ty b with
    | none =>
      refine .inl ⟨none, fun k _ => ?_⟩
      (try dsimp only); rw [allAs_append, ha]
      simp only [allAs, hb]
      cases k.as ty <;> simp
    | some y =>
      refine .inr ⟨ty, _, .item x y .here, fun k _ => ?_⟩
      (try dsimp only); rw [allAs_append, ha]
      simp only [allAs, hb]
      cases k.as ty <;> simp

theorem slot_local {n : EName} {G : Kid → List Kid} (h : Split n G) (s : Slot) (absent : Option Val) : Local n fun k => slotValue s absent (G k) := by
  rcases h with h | ⟨a, b, h⟩
  · exact .inl (h.comp _)
  · obtain ⟨card, ty⟩ := s
    cases card with
    | one =>
      by_cases hab : a = [] ∧ b = []
      · obtain ⟨rfl, rfl⟩ := hab
        exact .inr ⟨ty, id, .here, fun k hk => by (try dsimp only); rw [h k hk]; simp [slotValue]⟩
      · refine .inl ⟨none, fun k hk => ?_⟩
        (try dsimp only); rw [h k hk]
        cases a with
        | nil => cases b with | nil => simp at hab | cons y b => simp [slotValue]
        | cons x a => simp [slotValue]
    | opt =>
      by_cases hab : a = [] ∧ b = []
      · obtain ⟨rfl, rfl⟩ := hab
        exact .inr ⟨ty, _, .opt .here, fun k hk => by (try dsimp only); rw [h k hk]; simp [slotValue]⟩
      · refine .inl ⟨none, fun k hk => ?_⟩
        (try dsimp only); rw [h k hk]
        cases a with
        | nil => cases b with | nil => simp at hab | cons y b => simp [slotValue]
        | cons x a => simp [slotValue]
    | many =>
      have h2 : ∀ k, k.name = n → slotValue ⟨.many, ty⟩ absent (G k) = (allAs ty (a ++ k :: b)).map .vec := fun k hk => by
        (try dsimp only); rw [h k hk]
        cases a with
        | nil => rfl
        | cons x a => rfl
      rcases vec_local n ty a b with ⟨r, h3⟩ | ⟨ty', C, hC, h3⟩
      · exact .inl ⟨r, fun k hk => (h2 k hk).trans (h3 k hk)⟩
      · exact .inr ⟨ty', C, hC, fun k hk => (h2 k hk).trans (h3 k hk)⟩

theorem choices_append (d : EnumDef) (a b : List Kid) : choices d (a ++ b) = choices d a ++ choices d b := by simp [choices]

theorem choices_cons (d : EnumDef) (k : Kid) (b : List Kid) : choices d (k :: b) = ((variantOf d k.name).map fun i => (i, k)).toList ++ choices d b := by
  simp only [choices, List.filterMap_cons]
  cases variantOf d k.name <;> simp

/-- The value of an enum from its children. -/
def chosen (d : EnumDef) : List (Nat × Kid) → Option Val
  | [] => none
  | (i, k) :: rest =>
    if rest.all (fun c => c.1 == i) then
      match d.variants[i]? with
      | none => none
      | some v =>
        match v.slot with
        | none => some (.enm i none)
        | some s => (slotValue s none (k :: rest.map Prod.snd)).map fun p => .enm i (some p)
    else none

theorem enumValue_eq (d : EnumDef) (ks : List Kid) : enumValue d ks = chosen d (choices d ks) := by
  unfold enumValue chosen
  cases choices d ks <;> rfl

theorem enum_const {n : EName} {d : EnumDef} (hv : variantOf d n = none) {G : Kid → List Kid} (h : Split n G) : Const n fun k => enumValue d (G k) := by
  rcases h with h | ⟨a, b, h⟩
  · exact h.comp _
  · exact ⟨chosen d (choices d a ++ choices d b), fun k hk => by (try dsimp only); rw [h k hk, enumValue_eq, choices_append, choices_cons, hk, hv]; rfl⟩

theorem enum_local (d : EnumDef) {n : EName} {G : Kid → List Kid} (h : Split n G) : Local n fun k => enumValue d (G k) := by
  cases hv : variantOf d n with
  | none => exact .inl (enum_const hv h)
  | some j =>
    rcases h with h | ⟨a, b, h⟩
    · exact .inl (h.comp _)
    · have h2 : ∀ k, k.name = n → enumValue d (G k) = chosen d (choices d a ++ (j, k) :: choices d b) := fun k hk => by
        (try dsimp only); rw [h k hk, enumValue_eq, choices_append, choices_cons, hk, hv]; rfl
      suffices h3 : Local n fun k => chosen d (choices d a ++ (j, k) :: choices d b) by
        rcases h3 with ⟨r, h3⟩ | ⟨ty', C, hC, h3⟩
        · exact .inl ⟨r, fun k hk => (h2 k hk).trans (h3 k hk)⟩
        · exact .inr ⟨ty', C, hC, fun k hk => (h2 k hk).trans (h3 k hk)⟩
      generalize choices d a = x
      generalize choices d b = y
      have key : ∀ (i : Nat) (G : Kid → List Kid), Split n G →
          Local n fun k => match d.variants[i]? with
            | none => none
            | some v => match v.slot with
              | none => some (.enm i none)
              | some s => (slotValue s none (G k)).map fun p => .enm i (some p) := by
        intro i G hG
        cases d.variants[i]? with
        | none => exact .inl ⟨none, fun _ _ => rfl⟩
        | some v =>
          simp only
          cases v.slot with
          | none => exact .inl ⟨some (.enm i none), fun _ _ => rfl⟩
          | some s => exact (slot_local hG s none).map (.payload i .here)
      cases x with
      | nil =>
        simp only [List.nil_append, chosen]
        split
        · exact key j _ (.inr ⟨[], y.map Prod.snd, fun k _ => rfl⟩)
        · exact .inl ⟨none, fun _ _ => rfl⟩
      | cons c x =>
        obtain ⟨i, c⟩ := c
        simp only [List.cons_append, chosen, List.all_append, List.all_cons]
        split
        · exact key i _ (.inr ⟨c :: x.map Prod.snd, y.map Prod.snd, fun k _ => by simp⟩)
        · exact .inl ⟨none, fun _ _ => rfl⟩

theorem past_split (env : Env) (es : List Nat) {n : EName} {G : Kid → List Kid} (h : Split n G) : Split n fun k => past env es (G k) := by
  induction es generalizing G with
  | nil => exact h
  | cons e es ih => exact ih (takeWhile_split h fun k k' hk => by rw [hk])

theorem past_const (env : Env) (es : List Nat) {n : EName} {G : Kid → List Kid} (h : Split n G) {e : Nat} (he : e ∈ es) (hv : (variantOf (env.enm e) n).isSome = true) :
    Const n fun k => past env es (G k) := by
  induction es generalizing G with
  | nil => simp at he
  | cons e' es ih =>
    simp only [past]
    by_cases hee : e = e'
    · subst hee
      refine (takeWhile_const h (p := fun k => (variantOf (env.enm e) k.name).isNone) fun k hk => ?_).comp _
      rw [hk]
      revert hv
      cases variantOf (env.enm e) n <;> simp
    · exact ih (takeWhile_split h fun k k' hk => by rw [hk]) (by simpa [hee] using he)

/-- This field does not get children of the name `n`. -/
def Unconcerned (env : Env) (all : List Field) (earlier : List Nat) (n : EName) (f : Field) : Prop :=
  match f.kind with
  | .element _ => f.name.expanded ≠ n
  | .flatten e => declaredElem all n = true ∨ (∃ e' ∈ earlier, (variantOf (env.enm e') n).isSome = true) ∨ variantOf (env.enm e) n = none
  | _ => True

theorem field_const {env : Env} {all : List Field} {earlier : List Nat} {n : EName} {f : Field} (hu : Unconcerned env all earlier n f) {G : Kid → List Kid} (h : Split n G)
    (as : List XAttr) (t : String) : Const n fun k => fieldValue env all ⟨as, G k, t⟩ earlier f := by
  unfold Unconcerned at hu
  unfold fieldValue
  split at hu
  · rename_i s hs
    simp only [hs]
    exact (filter_const h (p := fun k => k.name == f.name.expanded) fun k hk => by simpa [hk] using fun h => hu h.symm).comp _
  · rename_i e he
    simp only [he]
    have hst : Split n fun k => strangers all (G k) := filter_split h fun k k' hk => by rw [hk]
    rcases hu with hu | ⟨e', h1, h2⟩ | hu
    · exact (filter_const h (p := fun k => !declaredElem all k.name) fun k hk => by simp [hk, hu]).comp fun l => enumValue (env.enm e) (past env earlier l)
    · exact (past_const env earlier hst h1 h2).comp _
    · exact enum_const hu (past_split env earlier hst)
  · split
    · rename_i s hs; exact absurd hs (by simp_all)
    · rename_i o u _; exact ⟨attrValue o u (f.default.or (attrAbsent o)) (attrsNamed f.name.expanded as), fun _ _ => rfl⟩
    · rename_i e he; exact absurd he (by simp_all)
    · exact ⟨none, fun _ _ => rfl⟩

theorem field_local (env : Env) (all : List Field) (earlier : List Nat) {n : EName} (f : Field) {G : Kid → List Kid} (h : Split n G) (as : List XAttr) (t : String) :
    Local n fun k => fieldValue env all ⟨as, G k, t⟩ earlier f := by
  unfold fieldValue
  split
  · exact slot_local (filter_split h fun k k' hk => by simp only [hk]) _ _
  · rename_i o u _; exact .inl ⟨attrValue o u (f.default.or (attrAbsent o)) (attrsNamed f.name.expanded as), fun _ _ => rfl⟩
  · exact enum_local _ (past_split env earlier (filter_split h fun k k' hk => by simp only [hk]))
  · exact .inl ⟨none, fun _ _ => rfl⟩

theorem fields_const {env : Env} {all : List Field} {n : EName} (fs : List Field) (earlier : List Nat)
    (hu : ∀ pre f post, fs = pre ++ f :: post → Unconcerned env all (earlier ++ flatTypes pre) n f) {G : Kid → List Kid} (h : Split n G)
    (as : List XAttr) (t : String) : Const n fun k => fieldsValue env all ⟨as, G k, t⟩ earlier fs := by
  induction fs generalizing earlier with
  | nil => exact ⟨some [], fun _ _ => rfl⟩
  | cons f fs ih =>
    obtain ⟨r, h1⟩ := field_const (by simpa [flatTypes] using hu [] f fs rfl) h as t
    obtain ⟨r', h2⟩ := ih (earlier ++ flatTypes [f]) fun pre g post hp => by
      have := hu (f :: pre) g post (by rw [hp]; rfl)
      have h3 : flatTypes (f :: pre) = flatTypes [f] ++ flatTypes pre := by
        simp only [flatTypes]
        split <;> rfl
      rwa [h3, ← List.append_assoc] at this
    exact ⟨_, fun k hk => by simp only [fieldsValue, h1 k hk, h2 k hk]; rfl⟩

theorem flatTypes_cons (f : Field) (fs : List Field) : flatTypes (f :: fs) = flatTypes [f] ++ flatTypes fs := by
  simp only [flatTypes]
  split <;> rfl

theorem unconcerned_or (env : Env) (all : List Field) (earlier : List Nat) (n : EName) (f : Field) : Unconcerned env all earlier n f ∨
    (∃ s, f.kind = .element s ∧ f.name.expanded = n) ∨ ∃ e, f.kind = .flatten e ∧ declaredElem all n = false ∧ (variantOf (env.enm e) n).isSome = true := by
  cases hk : f.kind with
  | element s =>
    by_cases hn : f.name.expanded = n
    · exact .inr (.inl ⟨s, rfl, hn⟩)
    · exact .inl (by simp only [Unconcerned, hk]; exact hn)
  | flatten e =>
    cases hd : declaredElem all n with
    | true => exact .inl (by simp only [Unconcerned, hk]; exact .inl hd)
    | false =>
      cases hv : variantOf (env.enm e) n with
      | none => exact .inl (by simp only [Unconcerned, hk]; exact .inr (.inr hv))
      | some j => exact .inr (.inr ⟨e, rfl, rfl, by simp [hv]⟩)
  | «attribute» o t => exact .inl (by simp only [Unconcerned, hk])
  | text t => exact .inl (by simp only [Unconcerned, hk])

theorem declared_of_mem {all : List Field} {f : Field} {s : Slot} (hf : f ∈ all) (hk : f.kind = .element s) : declaredElem all f.name.expanded = true := by
  simp only [declaredElem, List.any_eq_true]
  exact ⟨f, hf, by simp [hk]⟩

/-- No two element fields have the name `n`. -/
def OneOf (n : EName) (fs : List Field) : Prop :=
  fs.Pairwise fun f g => ¬ ((∃ s, f.kind = .element s) ∧ f.name.expanded = n ∧ (∃ s, g.kind = .element s) ∧ g.name.expanded = n)

theorem fields_local (env : Env) (all : List Field) {n : EName} (fs : List Field) (hall : ∀ f ∈ fs, f ∈ all) (hone : OneOf n fs) (earlier : List Nat) {G : Kid → List Kid}
    (h : Split n G) (as : List XAttr) (t : String) : (Const n fun k => fieldsValue env all ⟨as, G k, t⟩ earlier fs) ∨
    ∃ ty C a b, Place C ∧ ∀ k, k.name = n → fieldsValue env all ⟨as, G k, t⟩ earlier fs = (k.as ty).map fun w => a ++ C w :: b := by
  induction fs generalizing earlier with
  | nil => exact .inl ⟨some [], fun _ _ => rfl⟩
  | cons f fs ih =>
    have hp := List.pairwise_cons.mp hone
    -- if the head is constant, the tail decides; otherwise the tail is constant
    have hcase : (Const n fun k => fieldValue env all ⟨as, G k, t⟩ earlier f) ∨ Const n fun k => fieldsValue env all ⟨as, G k, t⟩ (earlier ++ flatTypes [f]) fs := by
      rcases unconcerned_or env all earlier n f with hu | ⟨s, hs, hn⟩ | ⟨e, he, hd, hv⟩
      · exact .inl (field_const hu h as t)
      · refine .inr (fields_const fs _ (fun pre g post hg => ?_) h as t)
        have hgm : g ∈ fs := by rw [hg]; simp
        rcases unconcerned_or env all (earlier ++ flatTypes [f] ++ flatTypes pre) n g with hu | ⟨s', hs', hn'⟩ | ⟨e, he, hd, hv⟩
        · exact hu
        · exact absurd ⟨⟨s, hs⟩, hn, ⟨s', hs'⟩, hn'⟩ (hp.1 g hgm)
        · rw [← hn, declared_of_mem (hall f (by simp)) hs] at hd
          simp at hd
      · refine .inr (fields_const fs _ (fun pre g post hg => ?_) h as t)
        have hgm : g ∈ fs := by rw [hg]; simp
        rcases unconcerned_or env all (earlier ++ flatTypes [f] ++ flatTypes pre) n g with hu | ⟨s', hs', hn'⟩ | ⟨e', he', hd', hv'⟩
        · exact hu
        · rw [← hn', declared_of_mem (hall g (by simp [hgm])) hs'] at hd
          simp at hd
        · simp only [Unconcerned, he']
          exact .inr (.inl ⟨e, by simp [flatTypes, he], hv⟩)
    rcases hcase with ⟨r, h1⟩ | ⟨r, h1⟩
    · rcases ih (fun g hg => hall g (by simp [hg])) hp.2 (earlier ++ flatTypes [f]) with ⟨r', h2⟩ | ⟨ty, C, a, b, hC, h2⟩
      · exact .inl ⟨(r.bind fun v => r'.map (v :: ·)), fun k hk => by
          have e1 := h1 k hk
          have e2 := h2 k hk
          simp only at e1 e2
          simp only [fieldsValue, e1, e2]
          cases r <;> cases r' <;> rfl⟩
      · cases r with
        | none => exact .inl ⟨none, fun k hk => by
            have e1 := h1 k hk
            simp only at e1
            simp only [fieldsValue, e1]⟩
        | some v => exact .inr ⟨ty, C, v :: a, b, hC, fun k hk => by
            have e1 := h1 k hk
            simp only at e1
            simp only [fieldsValue, e1, h2 k hk]
            cases k.as ty <;> rfl⟩
    · rcases field_local env all earlier f h as t with ⟨r', h2⟩ | ⟨ty, C, hC, h2⟩
      · exact .inl ⟨(r'.bind fun v => r.map (v :: ·)), fun k hk => by
          have e1 := h1 k hk
          have e2 := h2 k hk
          simp only at e1 e2
          simp only [fieldsValue, e1, e2]
          cases r <;> cases r' <;> rfl⟩
      · cases r with
        | none => exact .inl ⟨none, fun k hk => by
            have e1 := h1 k hk
            simp only at e1
            simp only [fieldsValue, e1]
            split
            · rename_i hh; cases hh
            · rfl⟩
        | some vs => exact .inr ⟨ty, C, [], vs, hC, fun k hk => by
            have e1 := h1 k hk
            have e2 := h2 k hk
            simp only at e1 e2
            simp only [fieldsValue, e1, e2]
            cases k.as ty <;> rfl⟩

theorem oneOf (env : Env) (hok : EnvOk env) (i : Nat) (n : EName) : OneOf n (env.strct i).fields := by
  refine List.pairwise_iff_getElem.mpr fun p q hp hq hpq => ?_
  rintro ⟨⟨s, hs⟩, h1, ⟨s', hs'⟩, h2⟩
  have := hok.elems i p q _ _ s s' (List.getElem?_eq_getElem hp) (List.getElem?_eq_getElem hq) hs hs' (by rw [h1, h2])
  omega

theorem body_local (env : Env) (hok : EnvOk env) {n : EName} (as : List XAttr) (a b : List Kid) (t : String) (ty : Ty) :
    Local n fun k => bodyValue env ⟨as, a ++ k :: b, t⟩ ty := by
  cases ty with
  | text u =>
    refine .inl ⟨none, fun k _ => ?_⟩
    cases a <;> rfl
  | strct i =>
    simp only [bodyValue, structValue]
    rcases fields_local env (env.strct i).fields (env.strct i).fields (fun _ h => h) (oneOf env hok i n) [] (G := fun k => a ++ k :: b) (.inr ⟨a, b, fun _ _ => rfl⟩) as t with h | ⟨ty, C, x, y, hC, h⟩
    · exact .inl (h.comp _)
    · exact .inr ⟨ty, _, .field x y hC, fun k hk => by dsimp only; rw [h k hk]; simp [Function.comp_def]⟩
  | enm i => exact enum_local _ (.inr ⟨a, b, fun _ _ => rfl⟩)

/-- The child that an element is. -/
def kidOf (env : Env) (x : Elem) : Kid :=
  { node := { name := x.name, pos := x.pos }, as := bodyValue env (x.body env), bad := bodyBad env (x.body env), err := bodyErr env (x.body env) }

theorem _root_.SX.Spec.ReadsLocally.map {env : Env} {n : EName} {F : Elem → Option Val} (h : ReadsLocally env n F) {C : Val → Val} (hC : Place C) : ReadsLocally env n fun x => (F x).map C := by
  cases h with
  | same r h => exact .same (r.map C) fun x hx => by rw [h x hx]
  | place ty D hD h => exact .place ty _ (place_comp hC hD) fun x hx => by rw [h x hx]; simp [Function.comp_def]

theorem around_kids (env : Env) (hok : EnvOk env) (n : EName) {c : Elem → Forest} (h : Around c) :
    ∃ (a b : List Kid) (K : Elem → Kid) (m : EName) (t : String), (∀ x, x.name.expanded = n → kids env (c x) = a ++ K x :: b ∧ (K x).name = m ∧ (c x).text = t) ∧
      ∀ ty, ReadsLocally env n fun x => (K x).as ty := by
  induction h with
  | here rest =>
    exact ⟨[], kids env rest, kidOf env, n, rest.text, fun x hx => ⟨rfl, hx, rfl⟩, fun ty => .place ty id .here fun x _ => by simp [kidOf]⟩
  | @inside name attrs ns pos endPos rest c _ ih =>
    obtain ⟨a, b, K, m, t, h1, h2⟩ := ih
    refine ⟨[], kids env rest, fun x => kidOf env ⟨name, attrs, ns, pos, c x, endPos⟩, name.expanded, rest.text, fun x hx => ⟨rfl, rfl, rfl⟩, fun ty => ?_⟩
    have h3 : ∀ x, x.name.expanded = n → (kidOf env ⟨name, attrs, ns, pos, c x, endPos⟩).as ty = bodyValue env ⟨attrs, a ++ K x :: b, t⟩ ty := fun x hx => by
      obtain ⟨g1, g2, g3⟩ := h1 x hx
      simp only [kidOf, Elem.body, g1, g3]
    rcases body_local env hok (n := m) attrs a b t ty with ⟨r, h4⟩ | ⟨ty', C, hC, h4⟩
    · exact .same r fun x hx => (h3 x hx).trans (h4 (K x) (h1 x hx).2.1)
    · have h5 := (h2 ty').map hC
      cases h5 with
      | same r h5 => exact .same r fun x hx => ((h3 x hx).trans (h4 (K x) (h1 x hx).2.1)).trans (h5 x hx)
      | place ty'' D hD h5 => exact .place ty'' D hD fun x hx => ((h3 x hx).trans (h4 (K x) (h1 x hx).2.1)).trans (h5 x hx)
  | @elem name attrs ns pos children endPos c _ ih =>
    obtain ⟨a, b, K, m, t, h1, h2⟩ := ih
    refine ⟨kidOf env ⟨name, attrs, ns, pos, children, endPos⟩ :: a, b, K, m, t, fun x hx => ?_, h2⟩
    obtain ⟨g1, g2, g3⟩ := h1 x hx
    exact ⟨by simp only [kids, g1]; rfl, g2, g3⟩
  | @chars s cdata pos c _ ih =>
    obtain ⟨a, b, K, m, t, h1, h2⟩ := ih
    refine ⟨a, b, K, m, s ++ t, fun x hx => ?_, h2⟩
    obtain ⟨g1, g2, g3⟩ := h1 x hx
    exact ⟨g1, g2, by simp only [Forest.text, g3]⟩
  | @misc mi pos c _ ih =>
    obtain ⟨a, b, K, m, t, h1, h2⟩ := ih
    refine ⟨a, b, K, m, t, fun x hx => ?_, h2⟩
    obtain ⟨g1, g2, g3⟩ := h1 x hx
    exact ⟨g1, g2, g3⟩

theorem around_local (env : Env) (hok : EnvOk env) (n : EName) {c : Elem → Forest} (h : Around c) (root : Elem) (ty : Ty) :
    ReadsLocally env n fun x => bodyValue env (Elem.body env { root with children := c x }) ty := by
  obtain ⟨a, b, K, m, t, h1, h2⟩ := around_kids env hok n h
  have h3 : ∀ x, x.name.expanded = n → bodyValue env (Elem.body env { root with children := c x }) ty = bodyValue env ⟨root.attrs, a ++ K x :: b, t⟩ ty := fun x hx => by
    obtain ⟨g1, g2, g3⟩ := h1 x hx
    simp only [Elem.body, g1, g3]
  rcases body_local env hok (n := m) root.attrs a b t ty with ⟨r, h4⟩ | ⟨ty', C, hC, h4⟩
  · exact .same r fun x hx => (h3 x hx).trans (h4 (K x) (h1 x hx).2.1)
  · have h5 := (h2 ty').map hC
    cases h5 with
    | same r h5 => exact .same r fun x hx => ((h3 x hx).trans (h4 (K x) (h1 x hx).2.1)).trans (h5 x hx)
    | place ty'' D hD h5 => exact .place ty'' D hD fun x hx => ((h3 x hx).trans (h4 (K x) (h1 x hx).2.1)).trans (h5 x hx)

/-! ### Attributes -/

/-- The same whatever the value of the attribute is, or that value at one place. -/
def AttrLocal {α : Type} (P : (Val → α) → Prop) (F : String → Option α) : Prop := (∃ r, ∀ s, F s = r) ∨ ∃ t C, P C ∧ ∀ s, F s = (parsed t s).map C

theorem attrsNamed_split (n : EName) (x : QName) (a b : List XAttr) :
    (∃ l, ∀ s, attrsNamed n (a ++ ⟨x, s⟩ :: b) = l) ∨ (x.expanded = n ∧ ∀ s, attrsNamed n (a ++ ⟨x, s⟩ :: b) = attrsNamed n a ++ ⟨x, s⟩ :: attrsNamed n b) := by
  by_cases hx : x.expanded = n
  · exact .inr ⟨hx, fun s => by simp [attrsNamed, List.filter_cons, hx]⟩
  · exact .inl ⟨attrsNamed n a ++ attrsNamed n b, fun s => by simp [attrsNamed, List.filter_cons, hx]⟩

theorem attrValue_local (o : Bool) (t : TextTy) (absent : Option Val) (x : QName) (a b : List XAttr) :
    AttrLocal Place fun s => attrValue o t absent (a ++ ⟨x, s⟩ :: b) := by
  cases a with
  | cons y a => exact .inl ⟨none, fun s => by cases a <;> rfl⟩
  | nil =>
    cases b with
    | cons y b => exact .inl ⟨none, fun s => rfl⟩
    | nil =>
      cases o with
      | true =>
        refine .inr ⟨t, _, .opt .here, fun s => ?_⟩
        simp only [List.nil_append, attrValue, parsed]
        cases t.parse s <;> rfl
      | false =>
        refine .inr ⟨t, _, .here, fun s => ?_⟩
        simp only [List.nil_append, attrValue, parsed]
        cases t.parse s <;> rfl

/-- No two attribute fields have the name `n`. -/
def OneAttr (n : EName) (fs : List Field) : Prop :=
  fs.Pairwise fun f g => ¬ ((∃ o t, f.kind = .attribute o t) ∧ f.name.expanded = n ∧ (∃ o t, g.kind = .attribute o t) ∧ g.name.expanded = n)

theorem fieldAttr_const (env : Env) (all : List Field) (earlier : List Nat) (f : Field) (x : QName) (hu : ¬ ((∃ o t, f.kind = .attribute o t) ∧ f.name.expanded = x.expanded))
    (a b : List XAttr) (ks : List Kid) (t : String) : ∃ r, ∀ s, fieldValue env all ⟨a ++ ⟨x, s⟩ :: b, ks, t⟩ earlier f = r := by
  cases hk : f.kind with
  | element sl => exact ⟨slotValue sl (f.default.or (slotAbsent sl)) (named f.name.expanded ks), fun s => by simp only [fieldValue, hk]⟩
  | flatten e => exact ⟨enumValue (env.enm e) (past env earlier (strangers all ks)), fun s => by simp only [fieldValue, hk]⟩
  | text u => exact ⟨none, fun s => by simp only [fieldValue, hk]⟩
  | «attribute» o u =>
    rcases attrsNamed_split f.name.expanded x a b with ⟨l, hl⟩ | ⟨hn, -⟩
    · exact ⟨attrValue o u (f.default.or (attrAbsent o)) l, fun s => by simp only [fieldValue, hk, hl]⟩
    · exact absurd ⟨⟨o, u, hk⟩, hn.symm⟩ hu

theorem fieldsAttr_const (env : Env) (all : List Field) (x : QName) (fs : List Field) (hu : ∀ f ∈ fs, ¬ ((∃ o t, f.kind = .attribute o t) ∧ f.name.expanded = x.expanded))
    (earlier : List Nat) (a b : List XAttr) (ks : List Kid) (t : String) : ∃ r, ∀ s, fieldsValue env all ⟨a ++ ⟨x, s⟩ :: b, ks, t⟩ earlier fs = r := by
  induction fs generalizing earlier with
  | nil => exact ⟨some [], fun _ => rfl⟩
  | cons f fs ih =>
    obtain ⟨r, h1⟩ := fieldAttr_const env all earlier f x (hu f (by simp)) a b ks t
    obtain ⟨r', h2⟩ := ih (fun g hg => hu g (by simp [hg])) (earlier ++ flatTypes [f])
    exact ⟨r.bind fun v => r'.map (v :: ·), fun s => by
      simp only [fieldsValue, h1, h2]
      cases r <;> cases r' <;> rfl⟩

theorem fieldAttr_local (env : Env) (all : List Field) (earlier : List Nat) (f : Field) (x : QName) (a b : List XAttr) (ks : List Kid) (t : String) :
    AttrLocal Place fun s => fieldValue env all ⟨a ++ ⟨x, s⟩ :: b, ks, t⟩ earlier f := by
  by_cases hu : (∃ o t, f.kind = .attribute o t) ∧ f.name.expanded = x.expanded
  · obtain ⟨⟨o, u, hk⟩, hn⟩ := hu
    rcases attrsNamed_split f.name.expanded x a b with ⟨l, hl⟩ | ⟨-, hs⟩
    · exact .inl ⟨attrValue o u (f.default.or (attrAbsent o)) l, fun s => by simp only [fieldValue, hk, hl]⟩
    · simp only [fieldValue, hk, hs]
      exact attrValue_local o u _ x _ _
  · exact .inl (fieldAttr_const env all earlier f x hu a b ks t)

theorem fieldsAttr_local (env : Env) (all : List Field) (x : QName) (fs : List Field) (hone : OneAttr x.expanded fs) (earlier : List Nat) (a b : List XAttr) (ks : List Kid)
    (t : String) : AttrLocal (fun C => ∃ D p q, Place D ∧ C = fun w => p ++ D w :: q) fun s => fieldsValue env all ⟨a ++ ⟨x, s⟩ :: b, ks, t⟩ earlier fs := by
  induction fs generalizing earlier with
  | nil => exact .inl ⟨some [], fun _ => rfl⟩
  | cons f fs ih =>
    have hp := List.pairwise_cons.mp hone
    by_cases hu : (∃ o t, f.kind = .attribute o t) ∧ f.name.expanded = x.expanded
    · obtain ⟨r, h1⟩ := fieldsAttr_const env all x fs (fun g hg h => hp.1 g hg ⟨hu.1, hu.2, h.1, h.2⟩) (earlier ++ flatTypes [f]) a b ks t
      rcases fieldAttr_local env all earlier f x a b ks t with ⟨r', h2⟩ | ⟨u, C, hC, h2⟩
      · exact .inl ⟨r'.bind fun v => r.map (v :: ·), fun s => by
          simp only [fieldsValue, h1, h2]
          cases r <;> cases r' <;> rfl⟩
      · cases r with
        | none => exact .inl ⟨none, fun s => by
            simp only [fieldsValue, h1]
            split
            · rename_i hh; cases hh
            · rfl⟩
        | some vs => exact .inr ⟨u, _, ⟨C, [], vs, hC, rfl⟩, fun s => by
            simp only [fieldsValue, h1, h2]
            cases parsed u s <;> rfl⟩
    · obtain ⟨r, h1⟩ := fieldAttr_const env all earlier f x hu a b ks t
      rcases ih hp.2 (earlier ++ flatTypes [f]) with ⟨r', h2⟩ | ⟨u, C, ⟨D, p, q, hD, rfl⟩, h2⟩
      · exact .inl ⟨r.bind fun v => r'.map (v :: ·), fun s => by
          simp only [fieldsValue, h1, h2]
          cases r <;> cases r' <;> rfl⟩
      · cases r with
        | none => exact .inl ⟨none, fun s => by simp only [fieldsValue, h1]⟩
        | some v => exact .inr ⟨u, _, ⟨D, v :: p, q, hD, rfl⟩, fun s => by
            simp only [fieldsValue, h1, h2]
            cases parsed u s <;> rfl⟩

theorem oneAttr (env : Env) (hok : EnvOk env) (i : Nat) (n : EName) : OneAttr n (env.strct i).fields := by
  refine List.pairwise_iff_getElem.mpr fun p q hp hq hpq => ?_
  rintro ⟨⟨o, t, hs⟩, h1, ⟨o', t', hs'⟩, h2⟩
  have := hok.attrs i p q _ _ o t o' t' (List.getElem?_eq_getElem hp) (List.getElem?_eq_getElem hq) hs hs' (by rw [h1, h2])
  omega

theorem bodyAttr_local (env : Env) (hok : EnvOk env) (x : QName) (a b : List XAttr) (ks : List Kid) (t : String) (ty : Ty) :
    AttrLocal Place fun s => bodyValue env ⟨a ++ ⟨x, s⟩ :: b, ks, t⟩ ty := by
  cases ty with
  | text u => exact .inl ⟨bodyValue env ⟨[], ks, t⟩ (.text u), fun _ => rfl⟩
  | enm i => exact .inl ⟨bodyValue env ⟨[], ks, t⟩ (.enm i), fun _ => rfl⟩
  | strct i =>
    simp only [bodyValue, structValue]
    rcases fieldsAttr_local env (env.strct i).fields x (env.strct i).fields (oneAttr env hok i _) [] a b ks t with ⟨r, h⟩ | ⟨u, C, ⟨D, p, q, hD, rfl⟩, h⟩
    · exact .inl ⟨r.map .strct, fun s => congrArg (Option.map Val.strct) (h s)⟩
    · exact .inr ⟨u, _, .field p q hD, fun s => (congrArg (Option.map Val.strct) (h s)).trans (by cases parsed u s <;> rfl)⟩

theorem fieldsValue_text (env : Env) (all : List Field) (as : List XAttr) (ks : List Kid) {t t' : String} (fs : List Field) (earlier : List Nat) :
    fieldsValue env all ⟨as, ks, t⟩ earlier fs = fieldsValue env all ⟨as, ks, t'⟩ earlier fs := by
  induction fs generalizing earlier with
  | nil => rfl
  | cons f fs ih =>
    simp only [fieldsValue, ih]
    rfl

end SX.LocalRead
