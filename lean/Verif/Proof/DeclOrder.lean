import Verif.Spec.DeclOrder
import Verif.Proof.Grow
import Verif.Proof.RoundTrip

/-
C94.
-/
namespace SX.DeclOrder
open Spec SX.Grow

/-- Both or none. -/
inductive OptRel {α β : Type} (R : α → β → Prop) : Option α → Option β → Prop where
  | none : OptRel R none none
  | some {a b} : R a b → OptRel R (some a) (some b)

theorem OptRel.map {α β α' β' : Type} {R : α → β → Prop} {R' : α' → β' → Prop} {g : α → α'} {g' : β → β'} (hg : ∀ a b, R a b → R' (g a) (g' b)) {a : Option α}
    {b : Option β} (h : OptRel R a b) : OptRel R' (a.map g) (b.map g') := by
  cases h with
  | none => exact .none
  | some h => exact .some (hg _ _ h)

section
variable {m : Places} {env env' : Env}

structure KidRel (m : Places) (env env' : Env) (k k' : Kid) : Prop where
  name : k'.name = k.name
  as : ∀ ty, OptRel (SameVal m env env' ty) (k.as ty) (k'.as ty)

abbrev Kids (m : Places) (env env' : Env) : List Kid → List Kid → Prop := Rowwise (KidRel m env env')

theorem named_kids {ks ks' : List Kid} (h : Kids m env env' ks ks') (n : EName) : Kids m env env' (named n ks) (named n ks') :=
  rowwise_filter2 (fun a b hab => by rw [hab.name]) h

theorem allAs_rel {ks ks' : List Kid} (h : Kids m env env' ks ks') (ty : Ty) : OptRel (SameAll m env env' ty) (allAs ty ks) (allAs ty ks') := by
  induction h with
  | nil => exact .some .nil
  | @cons k k' l l' h t ih =>
    simp only [allAs]
    have h1 := h.as ty
    generalize k.as ty = a at h1
    generalize k'.as ty = b at h1
    generalize allAs ty l = c at ih
    generalize allAs ty l' = d at ih
    cases h1 <;> cases ih
    · exact .none
    · exact .none
    · exact .none
    · exact .some (.cons ‹_› ‹_›)

theorem slotValue_rel {ks ks' : List Kid} (h : Kids m env env' ks ks') (s : Slot) {a a' : Option Val} (ha : OptRel (SameSlot m env env' s) a a') :
    OptRel (SameSlot m env env' s) (slotValue s a ks) (slotValue s a' ks') := by
  cases h with
  | nil => exact ha
  | @cons k k' l l' h t =>
    have he : l'.isEmpty = l.isEmpty := by cases t <;> rfl
    simp only [slotValue, he]
    split
    · rename_i hc
      split
      · have h1 := h.as s.ty
        generalize k.as s.ty = a at h1
        generalize k'.as s.ty = b at h1
        cases h1 with
        | none => exact .none
        | some h1 => exact .some (.mk (by rw [hc]; trivial) (by rw [hc]; trivial) (by rw [hc]; exact .cons h1 .nil))
      · exact .none
    · rename_i hc
      split
      · refine (h.as s.ty).map fun v v' hv => .mk (by rw [hc]; exact ⟨_, rfl⟩) (by rw [hc]; exact ⟨_, rfl⟩) (by rw [hc]; exact .cons hv .nil)
      · exact .none
    · rename_i hc
      exact (allAs_rel (.cons h t) s.ty).map fun v v' hv => .mk (by rw [hc]; exact ⟨_, rfl⟩) (by rw [hc]; exact ⟨_, rfl⟩) (by rw [hc]; exact hv)

theorem variantOf_rel (hok : EnvOk env) (hok' : EnvOk env') (hr : Reordered m env env') (e : Nat) (n : EName) :
    variantOf (env.enm e) n = (variantOf (env'.enm e) n).map (m.variant e) := by
  cases h : variantOf (env'.enm e) n with
  | some j =>
    obtain ⟨w', h1, h2⟩ := (variantOf_iff env' hok' e n j).mp h
    obtain ⟨w, h3, h4, -⟩ := hr.variants e j w' h1
    exact (variantOf_iff env hok e n _).mpr ⟨w, h3, by rw [← h4, h2]⟩
  | none =>
    cases h' : variantOf (env.enm e) n with
    | none => rfl
    | some q =>
      exfalso
      obtain ⟨w, h1, h2⟩ := (variantOf_iff env hok e n q).mp h'
      obtain ⟨p, hp, hq⟩ := hr.allVariants e q (List.getElem?_eq_some_iff.mp h1).1
      obtain ⟨w2, h3, h4, -⟩ := hr.variants e p _ (List.getElem?_eq_getElem hp)
      rw [hq, h1] at h3
      cases h3
      have := (variantOf_iff env' hok' e n p).mpr ⟨_, List.getElem?_eq_getElem hp, by rw [h4, h2]⟩
      rw [h] at this
      cases this

theorem isNone_rel (hok : EnvOk env) (hok' : EnvOk env') (hr : Reordered m env env') (e : Nat) (n : EName) :
    (variantOf (env.enm e) n).isNone = (variantOf (env'.enm e) n).isNone := by
  rw [variantOf_rel hok hok' hr]
  cases variantOf (env'.enm e) n <;> rfl

theorem variant_once (hok : EnvOk env) (hok' : EnvOk env') (hr : Reordered m env env') (e : Nat) {p q : Nat} (hp : p < (env'.enm e).variants.length)
    (hq : q < (env'.enm e).variants.length) (h : m.variant e p = m.variant e q) : p = q := by
  obtain ⟨w, h1, h2, -⟩ := hr.variants e p _ (List.getElem?_eq_getElem hp)
  obtain ⟨w2, h3, h4, -⟩ := hr.variants e q _ (List.getElem?_eq_getElem hq)
  rw [h, h3] at h1
  cases h1
  exact hok'.variants e p q _ _ (List.getElem?_eq_getElem hp) (List.getElem?_eq_getElem hq) (by rw [h2, h4])

theorem choices_rel (hok : EnvOk env) (hok' : EnvOk env') (hr : Reordered m env env') (e : Nat) {ks ks' : List Kid} (h : Kids m env env' ks ks') :
    Rowwise (fun (c c' : Nat × Kid) => c.1 = m.variant e c'.1 ∧ c'.1 < (env'.enm e).variants.length ∧ KidRel m env env' c.2 c'.2) (choices (env.enm e) ks) (choices (env'.enm e) ks') := by
  induction h with
  | nil => exact .nil
  | @cons k k' l l' h t ih =>
    simp only [choices, List.filterMap_cons, h.name] at ih ⊢
    rw [variantOf_rel hok hok' hr]
    cases hv : variantOf (env'.enm e) k.name with
    | none => exact ih
    | some j =>
      obtain ⟨w, hw, -⟩ := (variantOf_iff env' hok' e _ j).mp hv
      exact .cons ⟨rfl, (List.getElem?_eq_some_iff.mp hw).1, h⟩ ih

theorem rowwise_map {α β α' β' : Type} {R : α → β → Prop} {R' : α' → β' → Prop} {g : α → α'} {g' : β → β'} (hg : ∀ a b, R a b → R' (g a) (g' b)) {l : List α}
    {l' : List β} (h : Rowwise R l l') : Rowwise R' (l.map g) (l'.map g') := by
  induction h with
  | nil => exact .nil
  | cons h _ ih => exact .cons (hg _ _ h) ih

theorem enumValue_rel (hok : EnvOk env) (hok' : EnvOk env') (hr : Reordered m env env') (e : Nat) {ks ks' : List Kid} (h : Kids m env env' ks ks') :
    OptRel (SameVal m env env' (.enm e)) (enumValue (env.enm e) ks) (enumValue (env'.enm e) ks') := by
  unfold enumValue
  have hc := choices_rel hok hok' hr e h
  generalize choices (env.enm e) ks = c at hc
  generalize choices (env'.enm e) ks' = c' at hc
  cases hc with
  | nil => exact .none
  | @cons a b l l' h t =>
    obtain ⟨i, k⟩ := a
    obtain ⟨j, k'⟩ := b
    obtain ⟨h1, h2, h3⟩ := h
    dsimp only at h1 h2 h3
    subst h1
    have hall : (l.all fun c => c.1 == m.variant e j) = (l'.all fun c => c.1 == j) := by
      clear h3
      induction t with
      | nil => rfl
      | @cons x y l l' hxy _ ih =>
        simp only [List.all_cons, ih]
        congr 1
        rw [hxy.1, Bool.eq_iff_iff, beq_iff_eq, beq_iff_eq]
        exact ⟨variant_once hok hok' hr e hxy.2.1 h2, fun h => by rw [h]⟩
    dsimp only
    rw [hall]
    split
    · obtain ⟨w, g1, -, g3⟩ := hr.variants e j _ (List.getElem?_eq_getElem h2)
      have g4 := List.getElem?_eq_getElem h2
      generalize (env'.enm e).variants[j] = w' at g3 g4
      simp only [g1, g4, g3]
      cases hs : w.slot with
      | none => exact .some (.unit g4 (by rw [g3, hs]))
      | some s =>
        exact (slotValue_rel (.cons h3 (rowwise_map (fun _ _ h => h.2.2) t)) s .none).map fun p p' hp => .payload g4 (by rw [g3, hs]) hp
    · exact .none

theorem past_rel (hok : EnvOk env) (hok' : EnvOk env') (hr : Reordered m env env') (es : List Nat) {ks ks' : List Kid} (h : Kids m env env' ks ks') :
    Kids m env env' (past env es ks) (past env' es ks') := by
  induction es generalizing ks ks' with
  | nil => exact h
  | cons e es ih => exact ih (rowwise_takeWhile2 (fun a b hab => by rw [hab.name]; exact isNone_rel hok hok' hr e _) h)

theorem declaredElem_rel (hr : Reordered m env env') (i : Nat) (n : EName) : declaredElem (env.strct i).fields n = declaredElem (env'.strct i).fields n := by
  rw [Bool.eq_iff_iff]
  simp only [declaredElem, List.any_eq_true]
  constructor
  · rintro ⟨f, hf, h⟩
    obtain ⟨q, hq⟩ := List.getElem?_of_mem hf
    obtain ⟨p, hp, rfl⟩ := hr.all i q (List.getElem?_eq_some_iff.mp hq).1
    obtain ⟨f0, h1, h2⟩ := hr.fields i p _ (List.getElem?_eq_getElem hp)
    rw [hq] at h1
    cases h1
    refine ⟨_, List.getElem_mem hp, ?_⟩
    rw [h2.kind]
    cases hk : f.kind with
    | flatten e => rw [hk] at h; exact h
    | _ => rw [h2.name (by simp [hk])]; rw [hk] at h; exact h
  · rintro ⟨f', hf, h⟩
    obtain ⟨p, hp⟩ := List.getElem?_of_mem hf
    obtain ⟨f, h1, h2⟩ := hr.fields i p _ hp
    refine ⟨f, List.mem_of_getElem? h1, ?_⟩
    rw [h2.kind] at h
    cases hk : f.kind with
    | flatten e => rw [hk] at h; exact h
    | _ => rw [h2.name (by simp [hk]), hk] at h; exact h

/-! ### Flattened fields before another -/

def flatAt (l : List Field) (p : Nat) : Option Nat :=
  match l[p]? with
  | some f => match f.kind with
    | .flatten e => some e
    | _ => none
  | none => none

theorem flatTypes_take (l : List Field) (q : Nat) : flatTypes (l.take q) = (List.range q).filterMap (flatAt l) := by
  induction q with
  | zero => rfl
  | succ q ih =>
    rw [List.take_succ, flatTypes_append, List.range_succ, List.filterMap_append, ih]
    congr 1
    simp only [List.filterMap_cons, List.filterMap_nil, flatAt]
    cases l[q]? with
    | none => rfl
    | some f => simp only [Option.toList, flatTypes]; cases f.kind <;> rfl

theorem increasing_eq {l l' : List Nat} (h : l.Pairwise (· < ·)) (h' : l'.Pairwise (· < ·)) (hm : ∀ x, x ∈ l ↔ x ∈ l') : l = l' := by
  induction l generalizing l' with
  | nil =>
    cases l' with
    | nil => rfl
    | cons b l' => exact absurd ((hm b).mpr (List.mem_cons_self ..)) (by simp)
  | cons a l ih =>
    cases l' with
    | nil => exact absurd ((hm a).mp (List.mem_cons_self ..)) (by simp)
    | cons b l' =>
      rw [List.pairwise_cons] at h h'
      have hab : a = b := by
        rcases List.mem_cons.mp ((hm a).mp (List.mem_cons_self ..)) with h1 | h1
        · exact h1
        · rcases List.mem_cons.mp ((hm b).mpr (List.mem_cons_self ..)) with h2 | h2
          · exact h2.symm
          · have := h.1 b h2
            have := h'.1 a h1
            omega
      subst hab
      rw [ih h.2 h'.2]
      intro x
      constructor
      · intro hx
        rcases List.mem_cons.mp ((hm x).mp (List.mem_cons_of_mem _ hx)) with rfl | h1
        · exact absurd (h.1 x hx) (Nat.lt_irrefl _)
        · exact h1
      · intro hx
        rcases List.mem_cons.mp ((hm x).mpr (List.mem_cons_of_mem _ hx)) with rfl | h1
        · exact absurd (h'.1 x hx) (Nat.lt_irrefl _)
        · exact h1

theorem filterMap_filter_isSome {α β : Type} (g : α → Option β) (l : List α) : l.filterMap g = (l.filter fun x => (g x).isSome).filterMap g := by
  induction l with
  | nil => rfl
  | cons a l ih =>
    simp only [List.filterMap_cons, List.filter_cons]
    cases h : g a with
    | none => simpa using ih
    | some b => simp [h, ih]

theorem flatAt_rel (hr : Reordered m env env') (i : Nat) {p : Nat} (hp : p < (env'.strct i).fields.length) :
    flatAt (env'.strct i).fields p = flatAt (env.strct i).fields (m.field i p) := by
  obtain ⟨f, h1, h2⟩ := hr.fields i p _ (List.getElem?_eq_getElem hp)
  simp only [flatAt, h1, List.getElem?_eq_getElem hp, h2.kind]

theorem flatAt_lt {l : List Field} {p : Nat} (h : (flatAt l p).isSome) : p < l.length := by
  simp only [flatAt] at h
  split at h
  · rename_i hf
    exact (List.getElem?_eq_some_iff.mp hf).1
  · cases h

theorem flatAt_kind {l : List Field} {p : Nat} (h : (flatAt l p).isSome) : ∃ f e, l[p]? = some f ∧ f.kind = .flatten e := by
  simp only [flatAt] at h
  split at h
  · rename_i f hf
    split at h
    · rename_i e he
      exact ⟨f, e, hf, he⟩
    · cases h
  · cases h

theorem positions_rel (hr : Reordered m env env') (i : Nat) (P Q : Nat)
    (hPQ : ∀ a, (flatAt (env'.strct i).fields a).isSome → (a < P ↔ m.field i a < Q)) :
    (List.range P).filterMap (flatAt (env'.strct i).fields) = (List.range Q).filterMap (flatAt (env.strct i).fields) := by
  rw [filterMap_filter_isSome, filterMap_filter_isSome (flatAt (env.strct i).fields)]
  have hmono : ∀ a b, (flatAt (env'.strct i).fields a).isSome → (flatAt (env'.strct i).fields b).isSome → a < b → m.field i a < m.field i b := by
    intro a b ha hb hab
    obtain ⟨f, e, h1, h2⟩ := flatAt_kind ha
    obtain ⟨g, e', h3, h4⟩ := flatAt_kind hb
    exact hr.flattened i a b f g e e' h1 h3 h2 h4 hab
  have key : ((List.range P).filter fun x => (flatAt (env'.strct i).fields x).isSome).map (m.field i) =
      (List.range Q).filter fun x => (flatAt (env.strct i).fields x).isSome := by
    apply increasing_eq
    · rw [List.pairwise_map]
      refine (List.pairwise_lt_range.filter _).imp_of_mem ?_
      intro a b ha hb hab
      exact hmono a b (List.mem_filter.mp ha).2 (List.mem_filter.mp hb).2 hab
    · exact List.pairwise_lt_range.filter _
    · intro x
      simp only [List.mem_map, List.mem_filter, List.mem_range]
      constructor
      · rintro ⟨a, ⟨ha, hs⟩, rfl⟩
        exact ⟨(hPQ a hs).mp ha, by rw [← flatAt_rel hr i (flatAt_lt hs)]; exact hs⟩
      · rintro ⟨hx, hs⟩
        obtain ⟨a, ha, rfl⟩ := hr.all i x (flatAt_lt hs)
        have hs' : (flatAt (env'.strct i).fields a).isSome := by rw [flatAt_rel hr i ha]; exact hs
        exact ⟨a, ⟨(hPQ a hs').mpr hx, hs'⟩, rfl⟩
  rw [← key, List.filterMap_map]
  have hcongr : ∀ (l : List Nat), (∀ x ∈ l, (flatAt (env'.strct i).fields x).isSome) →
      l.filterMap (flatAt (env'.strct i).fields) = l.filterMap (flatAt (env.strct i).fields ∘ m.field i) := by
    intro l hl
    induction l with
    | nil => rfl
    | cons a l ih =>
      have h1 := flatAt_rel hr i (flatAt_lt (hl a (List.mem_cons_self ..)))
      simp only [List.filterMap_cons, Function.comp_apply, h1]
      rw [ih fun x hx => hl x (List.mem_cons_of_mem _ hx)]
  exact hcongr _ fun x hx => (List.mem_filter.mp hx).2

theorem earlier_rel (hr : Reordered m env env') (i : Nat) {p : Nat} (hp : (flatAt (env'.strct i).fields p).isSome) :
    flatTypes ((env'.strct i).fields.take p) = flatTypes ((env.strct i).fields.take (m.field i p)) := by
  rw [flatTypes_take, flatTypes_take]
  refine positions_rel hr i _ _ fun a ha => ?_
  obtain ⟨f, e, h1, h2⟩ := flatAt_kind ha
  obtain ⟨g, e', h3, h4⟩ := flatAt_kind hp
  constructor
  · exact hr.flattened i a p f g e e' h1 h3 h2 h4
  · intro h
    rcases Nat.lt_trichotomy a p with h' | h' | h'
    · exact h'
    · subst h'; omega
    · have := hr.flattened i p a g f e' e h3 h1 h4 h2 h'
      omega

theorem flatTypes_rel (hr : Reordered m env env') (i : Nat) : flatTypes (env'.strct i).fields = flatTypes (env.strct i).fields := by
  have h := flatTypes_take (env'.strct i).fields (env'.strct i).fields.length
  have h' := flatTypes_take (env.strct i).fields (env.strct i).fields.length
  rw [List.take_length] at h h'
  rw [h, h']
  refine positions_rel hr i _ _ fun a ha => ?_
  have h1 := flatAt_lt ha
  have h2 : (flatAt (env.strct i).fields (m.field i a)).isSome := by rw [← flatAt_rel hr i h1]; exact ha
  exact ⟨fun _ => flatAt_lt h2, fun _ => h1⟩

/-! ### Structs -/

theorem fieldValue_rel (hok : EnvOk env) (hok' : EnvOk env') (hr : Reordered m env env') (i : Nat) {b b' : Body} (hb : Kids m env env' b.kids b'.kids)
    (ha : b'.attrs = b.attrs) {p : Nat} {f f' : Field} (hf' : (env'.strct i).fields[p]? = some f') (hf : (env.strct i).fields[m.field i p]? = some f)
    (hs : SameDecl m env env' f f') :
    OptRel (SameField m env env' f.kind) (fieldValue env (env.strct i).fields b (flatTypes ((env.strct i).fields.take (m.field i p))) f)
      (fieldValue env' (env'.strct i).fields b' (flatTypes ((env'.strct i).fields.take p)) f') := by
  have hd := hs.default
  unfold fieldValue
  rw [hs.kind]
  cases hk : f.kind with
  | element s =>
    rw [hs.name (by simp [hk])]
    rw [hk] at hd
    dsimp only
    have habs : OptRel (SameSlot m env env' s) (f.default.or (slotAbsent s)) (f'.default.or (slotAbsent s)) := by
      split at hd
      · rename_i h1 h2
        rw [h1, h2]
        simp only [Option.none_or, slotAbsent]
        split
        · exact .none
        · rename_i hc; exact .some (.mk (by rw [hc]; exact ⟨_, rfl⟩) (by rw [hc]; exact ⟨_, rfl⟩) (by rw [hc]; exact .nil))
        · rename_i hc; exact .some (.mk (by rw [hc]; exact ⟨_, rfl⟩) (by rw [hc]; exact ⟨_, rfl⟩) (by rw [hc]; exact .nil))
      · rename_i h1 h2
        rw [h1, h2]
        cases hd with
        | element h => exact .some h
      · cases hd
    have h := slotValue_rel (named_kids hb f.name.expanded) s habs
    revert h
    generalize slotValue s (f.default.or (slotAbsent s)) (named f.name.expanded b.kids) = a
    generalize slotValue s (f'.default.or (slotAbsent s)) (named f.name.expanded b'.kids) = a'
    intro h
    cases h with
    | none => exact .none
    | some h => exact .some (.element h)
  | «attribute» o t =>
    rw [hk] at hd
    dsimp only
    rw [ha, hs.name (by simp [hk])]
    have habs : f'.default = f.default := by
      split at hd
      · rename_i h1 h2; rw [h1, h2]
      · rename_i h1 h2; cases hd; rw [h1, h2]
      · cases hd
    rw [habs]
    generalize attrValue o t (f.default.or (attrAbsent o)) (attrsNamed f.name.expanded b.attrs) = a
    cases a with
    | none => exact .none
    | some v => exact .some .attribute
  | flatten e =>
    dsimp only
    have hflat : (flatAt (env'.strct i).fields p).isSome := by simp [flatAt, hf', hs.kind, hk]
    rw [earlier_rel hr i hflat]
    have hstr : Kids m env env' (strangers (env.strct i).fields b.kids) (strangers (env'.strct i).fields b'.kids) :=
      rowwise_filter2 (fun a b hab => by rw [hab.name, declaredElem_rel hr i]) hb
    have h := enumValue_rel hok hok' hr e (past_rel hok hok' hr (flatTypes ((env.strct i).fields.take (m.field i p))) hstr)
    revert h
    generalize enumValue (env.enm e) _ = a
    generalize enumValue (env'.enm e) _ = a'
    intro h
    cases h with
    | none => exact .none
    | some h => exact .some (.flatten h)
  | text t => exact absurd hk (hok.noText i f t (List.mem_of_getElem? hf))

/-- The list of values at the indices below `n`. -/
theorem collect (n : Nat) (P : Nat → Val → Prop) (h : ∀ p, p < n → ∃ v, P p v) : ∃ vs : List Val, vs.length = n ∧ ∀ p v, vs[p]? = some v → P p v := by
  induction n with
  | zero => exact ⟨[], rfl, by simp⟩
  | succ n ih =>
    obtain ⟨vs, h1, h2⟩ := ih fun p hp => h p (by omega)
    obtain ⟨v, hv⟩ := h n (by omega)
    refine ⟨vs ++ [v], by simp [h1], ?_⟩
    intro p w hw
    by_cases hp : p < n
    · rw [List.getElem?_append_left (by omega)] at hw
      exact h2 p w hw
    · rw [List.getElem?_append_right (by omega)] at hw
      have : p = n := by
        have := (List.getElem?_eq_some_iff.mp hw).1
        simp at this
        omega
      subst this
      simp [h1] at hw
      subst hw
      exact hv

theorem fieldsValue_iff (e : Env) (all : List Field) (b : Body) (fs : List Field) (vs : List Val) :
    fieldsValue e all b [] fs = some vs ↔ vs.length = fs.length ∧ ∀ (p : Nat) (f : Field) (v : Val), fs[p]? = some f → vs[p]? = some v →
      fieldValue e all b (flatTypes (fs.take p)) f = some v := by
  constructor
  · intro h
    have := fieldsValue_at [] fs vs h
    simpa using this
  · rintro ⟨h1, h2⟩
    exact fieldsValue_eq [] fs vs h1 (by simpa using h2)

theorem structValue_rel (hok : EnvOk env) (hok' : EnvOk env') (hr : Reordered m env env') (i : Nat) {b b' : Body} (hb : Kids m env env' b.kids b'.kids)
    (ha : b'.attrs = b.attrs) :
    OptRel (SameVal m env env' (.strct i)) (structValue env (env.strct i).fields b) (structValue env' (env'.strct i).fields b') := by
  unfold structValue
  have hfv := fun p f f' hf' hf hs => fieldValue_rel hok hok' hr i hb ha (p := p) (f := f) (f' := f') hf' hf hs
  cases h : fieldsValue env (env.strct i).fields b [] (env.strct i).fields with
  | some vs =>
    obtain ⟨h1, h2⟩ := (fieldsValue_iff ..).mp h
    have : ∃ vs' : List Val, vs'.length = (env'.strct i).fields.length ∧ ∀ p v', vs'[p]? = some v' → ∀ f', (env'.strct i).fields[p]? = some f' →
        fieldValue env' (env'.strct i).fields b' (flatTypes ((env'.strct i).fields.take p)) f' = some v' ∧
        ∀ v, vs[m.field i p]? = some v → SameField m env env' f'.kind v v' := by
      apply collect
      intro p hp
      obtain ⟨f, g1, g2⟩ := hr.fields i p _ (List.getElem?_eq_getElem hp)
      have g3 : m.field i p < vs.length := by rw [h1]; exact (List.getElem?_eq_some_iff.mp g1).1
      have g4 := h2 _ _ _ g1 (List.getElem?_eq_getElem g3)
      have g5 := hfv p f _ (List.getElem?_eq_getElem hp) g1 g2
      rw [g4] at g5
      generalize hq : fieldValue env' (env'.strct i).fields b' (flatTypes ((env'.strct i).fields.take p)) (env'.strct i).fields[p] = q at g5
      cases g5 with
      | @some _ v' g5 =>
        refine ⟨v', fun f' hf' => ?_⟩
        rw [List.getElem?_eq_getElem hp] at hf'
        cases hf'
        refine ⟨hq, fun v hv => ?_⟩
        rw [List.getElem?_eq_getElem g3] at hv
        cases hv
        rw [g2.kind]
        exact g5
    obtain ⟨vs', k1, k2⟩ := this
    have : fieldsValue env' (env'.strct i).fields b' [] (env'.strct i).fields = some vs' :=
      (fieldsValue_iff ..).mpr ⟨k1, fun p f v hf hv => (k2 p v hv f hf).1⟩
    rw [this]
    exact .some (.strct h1 k1 fun p f v v' hf hv hv' => (k2 p v' hv' f hf).2 v hv)
  | none =>
    cases h' : fieldsValue env' (env'.strct i).fields b' [] (env'.strct i).fields with
    | none => exact .none
    | some vs' =>
      exfalso
      obtain ⟨h1, h2⟩ := (fieldsValue_iff ..).mp h'
      have : ∃ vs : List Val, vs.length = (env.strct i).fields.length ∧ ∀ q v, vs[q]? = some v → ∀ f, (env.strct i).fields[q]? = some f →
          fieldValue env (env.strct i).fields b (flatTypes ((env.strct i).fields.take q)) f = some v := by
        apply collect
        intro q hq
        obtain ⟨p, hp, rfl⟩ := hr.all i q hq
        obtain ⟨f, g1, g2⟩ := hr.fields i p _ (List.getElem?_eq_getElem hp)
        have g3 : p < vs'.length := by rw [h1]; exact hp
        have g4 := h2 _ _ _ (List.getElem?_eq_getElem hp) (List.getElem?_eq_getElem g3)
        have g5 := hfv p f _ (List.getElem?_eq_getElem hp) g1 g2
        rw [g4] at g5
        generalize hq : fieldValue env (env.strct i).fields b (flatTypes ((env.strct i).fields.take (m.field i p))) f = q at g5
        cases g5 with
        | @some v _ g5 =>
          refine ⟨v, fun f' hf' => ?_⟩
          rw [g1] at hf'
          cases hf'
          exact hq
      obtain ⟨vs, k1, k2⟩ := this
      have := (fieldsValue_iff env (env.strct i).fields b (env.strct i).fields vs).mpr ⟨k1, fun p f v hf hv => k2 p v hv f hf⟩
      rw [h] at this
      cases this

theorem bodyValue_rel (hok : EnvOk env) (hok' : EnvOk env') (hr : Reordered m env env') {b b' : Body} (hb : Kids m env env' b.kids b'.kids)
    (ha : b'.attrs = b.attrs) (ht : b'.text = b.text) (ty : Ty) : OptRel (SameVal m env env' ty) (bodyValue env b ty) (bodyValue env' b' ty) := by
  cases ty with
  | text t =>
    simp only [bodyValue, ht]
    generalize b.kids = k at hb
    generalize b'.kids = k' at hb
    cases hb with
    | nil =>
      cases t.parse b.text with
      | ok v => exact .some .text
      | _ => exact .none
    | cons => exact .none
  | strct i => exact structValue_rel hok hok' hr i hb ha
  | enm i => exact enumValue_rel hok hok' hr i hb

theorem kids_rel (hok : EnvOk env) (hok' : EnvOk env') (hr : Reordered m env env') (f : Forest) : Kids m env env' (kids env f) (kids env' f) := by
  induction f with
  | nil => exact .nil
  | elem n a _ p ch _ rest ih1 ih2 =>
    exact .cons ⟨rfl, fun ty => bodyValue_rel hok hok' hr (b := { attrs := a, kids := kids env ch, text := ch.text })
      (b' := { attrs := a, kids := kids env' ch, text := ch.text }) ih1 rfl rfl ty⟩ ih2
  | chars _ _ _ rest ih => exact ih
  | misc _ _ rest ih => exact ih

/-! ### One value for each -/

theorem values_eq {c : Card} {v v' : Val} (h : CardOk c v) (h' : CardOk c v') (hv : valuesOf c v = valuesOf c v') : v = v' := by
  cases c with
  | one => simpa [valuesOf] using hv
  | opt =>
    obtain ⟨o, rfl⟩ := h
    obtain ⟨o', rfl⟩ := h'
    cases o <;> cases o' <;> simp_all [valuesOf]
  | many =>
    obtain ⟨l, rfl⟩ := h
    obtain ⟨l', rfl⟩ := h'
    simpa [valuesOf] using hv

theorem same_right (hok : EnvOk env) (hok' : EnvOk env') (hr : Reordered m env env') {ty : Ty} {v v1 v2 : Val} (h : SameVal m env env' ty v v1)
    (h' : SameVal m env env' ty v v2) : v1 = v2 := by
  refine SameVal.rec (motive_1 := fun ty v v1 _ => ∀ v2, SameVal m env env' ty v v2 → v1 = v2) (motive_2 := fun s v v1 _ => ∀ v2, SameSlot m env env' s v v2 → v1 = v2)
    (motive_3 := fun ty l l1 _ => ∀ l2, SameAll m env env' ty l l2 → l1 = l2) (motive_4 := fun k v v1 _ => ∀ v2, SameField m env env' k v v2 → v1 = v2)
    ?_ ?_ ?_ ?_ ?_ ?_ ?_ ?_ ?_ ?_ h v2 h'
  · intro t v v2 h'; cases h'; rfl
  · intro i vs vs1 h1 h2 h3 ih v2 h'
    cases h' with
    | @strct _ _ vs2 g1 g2 g3 =>
      congr 1
      apply List.ext_getElem?
      intro p
      by_cases hp : p < (env'.strct i).fields.length
      · obtain ⟨f, k1, k2⟩ := hr.fields i p _ (List.getElem?_eq_getElem hp)
        have k3 : m.field i p < vs.length := by rw [h1]; exact (List.getElem?_eq_some_iff.mp k1).1
        have k4 : p < vs1.length := by omega
        have k5 : p < vs2.length := by omega
        rw [List.getElem?_eq_getElem k4, List.getElem?_eq_getElem k5]
        congr 1
        exact ih p _ _ _ (List.getElem?_eq_getElem hp) (List.getElem?_eq_getElem k3) (List.getElem?_eq_getElem k4) _
          (g3 p _ _ _ (List.getElem?_eq_getElem hp) (List.getElem?_eq_getElem k3) (List.getElem?_eq_getElem k5))
      · rw [List.getElem?_eq_none (by omega), List.getElem?_eq_none (by omega)]
  · intro i j w h1 h2 v2 h'
    generalize hj : m.variant i j = jj at h'
    cases h' with
    | unit g1 g2 => rw [variant_once hok hok' hr i (List.getElem?_eq_some_iff.mp h1).1 (List.getElem?_eq_some_iff.mp g1).1 hj]
  · intro i j w s p p' h1 h2 h3 ih v2 h'
    generalize hj : m.variant i j = jj at h'
    cases h' with
    | payload g1 g2 g3 =>
      have := variant_once hok hok' hr i (List.getElem?_eq_some_iff.mp h1).1 (List.getElem?_eq_some_iff.mp g1).1 hj
      subst this
      rw [h1] at g1
      cases g1
      rw [h2] at g2
      cases g2
      rw [ih _ g3]
  · intro s v v1 h1 h2 h3 ih v2 h'
    cases h' with
    | mk g1 g2 g3 => exact values_eq h2 g2 (ih _ g3)
  · intro ty l2 h'; cases h'; rfl
  · intro ty v v' l l' h1 h2 ih1 ih2 l2 h'
    cases h' with
    | cons g1 g2 => rw [ih1 _ g1, ih2 _ g2]
  · intro s v v' h ih v2 h'; cases h' with | element h' => exact ih _ h'
  · intro o t v v2 h'; cases h'; rfl
  · intro e v v' h ih v2 h'; cases h' with | flatten h' => exact ih _ h'

theorem same_left (hr : Reordered m env env') {ty : Ty} {v v1 v2 : Val} (h : SameVal m env env' ty v1 v) (h' : SameVal m env env' ty v2 v) : v1 = v2 := by
  refine SameVal.rec (motive_1 := fun ty v1 v _ => ∀ v2, SameVal m env env' ty v2 v → v1 = v2) (motive_2 := fun s v1 v _ => ∀ v2, SameSlot m env env' s v2 v → v1 = v2)
    (motive_3 := fun ty l1 l _ => ∀ l2, SameAll m env env' ty l2 l → l1 = l2) (motive_4 := fun k v1 v _ => ∀ v2, SameField m env env' k v2 v → v1 = v2)
    ?_ ?_ ?_ ?_ ?_ ?_ ?_ ?_ ?_ ?_ h v2 h'
  · intro t v v2 h'; cases h'; rfl
  · intro i vs1 vs h1 h2 h3 ih v2 h'
    cases h' with
    | @strct _ vs2 _ g1 g2 g3 =>
      congr 1
      apply List.ext_getElem?
      intro q
      by_cases hq : q < (env.strct i).fields.length
      · obtain ⟨p, hp, rfl⟩ := hr.all i q hq
        have k3 : p < vs.length := by omega
        have k4 : m.field i p < vs1.length := by omega
        have k5 : m.field i p < vs2.length := by omega
        rw [List.getElem?_eq_getElem k4, List.getElem?_eq_getElem k5]
        congr 1
        exact ih p _ _ _ (List.getElem?_eq_getElem hp) (List.getElem?_eq_getElem k4) (List.getElem?_eq_getElem k3) _
          (g3 p _ _ _ (List.getElem?_eq_getElem hp) (List.getElem?_eq_getElem k5) (List.getElem?_eq_getElem k3))
      · rw [List.getElem?_eq_none (by omega), List.getElem?_eq_none (by omega)]
  · intro i j w h1 h2 v2 h'; cases h'; rfl
  · intro i j w s p p' h1 h2 h3 ih v2 h'
    cases h' with
    | payload g1 g2 g3 =>
      rw [h1] at g1
      cases g1
      rw [h2] at g2
      cases g2
      rw [ih _ g3]
  · intro s v1 v h1 h2 h3 ih v2 h'
    cases h' with
    | mk g1 g2 g3 => exact values_eq h1 g1 (ih _ g3)
  · intro ty l2 h'; cases h'; rfl
  · intro ty v v' l l' h1 h2 ih1 ih2 l2 h'
    cases h' with
    | cons g1 g2 => rw [ih1 _ g1, ih2 _ g2]
  · intro s v v' h ih v2 h'; cases h' with | element h' => exact ih _ h'
  · intro o t v v2 h'; cases h'; rfl
  · intro e v v' h ih v2 h'; cases h' with | flatten h' => exact ih _ h'

end

end SX.DeclOrder
