import Verif.Spec.Grow
import Verif.Spec.Macro
import Verif.Proof.DeriveProps
import Verif.Spec.RoundTrip

/-
What the old version of a program reads, the new one reads (`Spec.Grown`).
-/
namespace SX.Grow
open Spec

theorem rowwise_filter2 {α β : Type} {R : α → β → Prop} {q : α → Bool} {q' : β → Bool} (hq : ∀ a b, R a b → q a = q' b) {l : List α} {l' : List β}
    (h : Rowwise R l l') : Rowwise R (l.filter q) (l'.filter q') := by
  induction h with
  | nil => exact .nil
  | @cons a b l m h t ih =>
    simp only [List.filter_cons, hq a b h]
    split
    · exact .cons h ih
    · exact ih

theorem rowwise_takeWhile2 {α β : Type} {R : α → β → Prop} {q : α → Bool} {q' : β → Bool} (hq : ∀ a b, R a b → q a = q' b) {l : List α} {l' : List β}
    (h : Rowwise R l l') : Rowwise R (l.takeWhile q) (l'.takeWhile q') := by
  induction h with
  | nil => exact .nil
  | @cons a b l m h t ih =>
    simp only [List.takeWhile_cons, hq a b h]
    split
    · exact .cons h ih
    · exact .nil

theorem rowwise_nil_iff {α β : Type} {R : α → β → Prop} {l : List α} {l' : List β} (h : Rowwise R l l') : l' = [] ↔ l = [] := by
  cases h <;> simp

section
variable {N M : EName → Prop} {env env' : Env}

/-- A child element for both versions. -/
structure KidRel (N M : EName → Prop) (env env' : Env) (k k' : Kid) : Prop where
  name : k'.name = k.name
  fresh : ¬ N k.name
  grows : ∀ {ty ty' v}, TyGrown ty ty' → k.as ty = some v → ∃ v', k'.as ty' = some v' ∧ ValGrown N M env env' ty ty' v v'

abbrev Kids (N M : EName → Prop) (env env' : Env) := Rowwise (KidRel N M env env')

theorem named_kids {ks ks' : List Kid} (h : Kids N M env env' ks ks') (n : EName) : Kids N M env env' (named n ks) (named n ks') :=
  rowwise_filter2 (fun a b hab => by rw [hab.name]) h

theorem named_fresh {ks ks' : List Kid} (h : Kids N M env env' ks ks') {n : EName} (hn : N n) : named n ks' = [] := by
  induction h with
  | nil => rfl
  | @cons k k' l l' h t ih =>
    have : (k'.name == n) = false := by
      rw [h.name, beq_eq_false_iff_ne]
      intro he
      exact h.fresh (he ▸ hn)
    simp only [named, List.filter_cons, this] at ih ⊢
    simpa using ih

theorem allAs_grow {ks ks' : List Kid} (h : Kids N M env env' ks ks') {ty ty' : Ty} (hty : TyGrown ty ty') {vs : List Val} (hv : allAs ty ks = some vs) :
    ∃ vs', allAs ty' ks' = some vs' ∧ AllGrown N M env env' ty ty' vs vs' := by
  induction h generalizing vs with
  | nil =>
    simp only [allAs, Option.some.injEq] at hv
    subst hv
    exact ⟨[], rfl, .nil⟩
  | @cons k k' l l' h t ih =>
    simp only [allAs] at hv
    cases h1 : k.as ty with
    | none => simp [h1] at hv
    | some v =>
      cases h2 : allAs ty l with
      | none => simp [h1, h2] at hv
      | some ws =>
        simp only [h1, h2, Option.some.injEq] at hv
        subst hv
        obtain ⟨v', a1, a2⟩ := h.grows hty h1
        obtain ⟨ws', b1, b2⟩ := ih h2
        exact ⟨v' :: ws', by simp only [allAs, a1, b1], .cons a2 b2⟩

theorem slotValue_grow {ks ks' : List Kid} (h : Kids N M env env' ks ks') {s s' : Slot} (hs : SlotGrown s s') {a a' : Option Val} {v : Val} (hne : ks ≠ [])
    (hv : slotValue s a ks = some v) : ∃ v', slotValue s' a' ks' = some v' ∧ CardOk s.card v ∧ CardOk s'.card v' ∧ valuesOf s.card v ≠ [] ∧
      AllGrown N M env env' s.ty s'.ty (valuesOf s.card v) (valuesOf s'.card v') := by
  have key : ∃ vs, allAs s.ty ks = some vs ∧ vs ≠ [] ∧ valuesOf s.card v = vs ∧ CardOk s.card v ∧ (s.card ≠ .many → ∃ k, ks = [k]) := by
    cases ks with
    | nil => exact absurd rfl hne
    | cons k l =>
      simp only [slotValue] at hv
      cases hc : s.card with
      | many =>
        simp only [hc, Option.map_eq_some_iff] at hv
        obtain ⟨vs, h1, rfl⟩ := hv
        refine ⟨vs, h1, ?_, rfl, ⟨vs, rfl⟩, fun hx => absurd rfl hx⟩
        intro he
        subst he
        simp only [allAs] at h1
        split at h1 <;> simp at h1
      | one =>
        simp only [hc] at hv
        split at hv
        · rename_i he
          have : l = [] := by simpa using he
          subst this
          exact ⟨[v], by simp [allAs, hv], by simp, rfl, trivial, fun _ => ⟨k, rfl⟩⟩
        · simp at hv
      | opt =>
        simp only [hc] at hv
        split at hv
        · rename_i he
          have : l = [] := by simpa using he
          subst this
          obtain ⟨w, h1, rfl⟩ := Option.map_eq_some_iff.mp hv
          exact ⟨[w], by simp [allAs, h1], by simp, rfl, ⟨_, rfl⟩, fun _ => ⟨k, rfl⟩⟩
        · simp at hv
  obtain ⟨vs, h1, h2, h3, h4, h5⟩ := key
  obtain ⟨vs', g1, g2⟩ := allAs_grow h hs.ty h1
  rw [h3]
  cases h with
  | nil => exact absurd rfl hne
  | @cons k k' l l' hk hl =>
    simp only [slotValue]
    cases hc : s'.card with
    | many => exact ⟨.vec vs', by simp [g1], h4, ⟨_, rfl⟩, h2, g2⟩
    | one =>
      obtain ⟨k0, hk0⟩ := h5 fun hm => by simp [hs.card hm] at hc
      simp only [List.cons.injEq] at hk0
      rw [hk0.2] at hl
      cases hl
      cases hka : k'.as s'.ty with
      | none => simp [allAs, hka] at g1
      | some w =>
        simp only [allAs, hka, Option.some.injEq] at g1
        subst g1
        exact ⟨w, by simp, h4, trivial, h2, g2⟩
    | opt =>
      obtain ⟨k0, hk0⟩ := h5 fun hm => by simp [hs.card hm] at hc
      simp only [List.cons.injEq] at hk0
      rw [hk0.2] at hl
      cases hl
      cases hka : k'.as s'.ty with
      | none => simp [allAs, hka] at g1
      | some w =>
        simp only [allAs, hka, Option.some.injEq] at g1
        subst g1
        exact ⟨.opt (some w), by simp, h4, ⟨_, rfl⟩, h2, g2⟩

/-! ### Enums -/

theorem variant_to {l l' : List Variant} (h : VariantsGrown N l l') {j : Nat} {w : Variant} (hw : l[j]? = some w) :
    ∃ (j' : Nat) (w' : Variant), l'[j']? = some w' ∧ w'.name.expanded = w.name.expanded ∧
      ((w.slot = none ∧ w'.slot = none) ∨ ∃ s s', w.slot = some s ∧ w'.slot = some s' ∧ SlotGrown s s') := by
  induction h generalizing j with
  | nil => simp at hw
  | unit h1 h2 h3 h4 _ ih =>
    cases j with
    | zero =>
      simp only [List.getElem?_cons_zero, Option.some.injEq] at hw
      subst hw
      exact ⟨0, _, rfl, h1, .inl ⟨h3, h4⟩⟩
    | succ j =>
      obtain ⟨j', w', a, b⟩ := ih (by simpa using hw)
      exact ⟨j' + 1, w', by simpa using a, b⟩
  | payload h1 h2 h3 h4 h5 _ ih =>
    cases j with
    | zero =>
      simp only [List.getElem?_cons_zero, Option.some.injEq] at hw
      subst hw
      exact ⟨0, _, rfl, h1, .inr ⟨_, _, h3, h4, h5⟩⟩
    | succ j =>
      obtain ⟨j', w', a, b⟩ := ih (by simpa using hw)
      exact ⟨j' + 1, w', by simpa using a, b⟩
  | added _ _ ih =>
    obtain ⟨j', w', a, b⟩ := ih hw
    exact ⟨j' + 1, w', by simpa using a, b⟩

theorem variant_from {l l' : List Variant} (h : VariantsGrown N l l') {w' : Variant} (hw : w' ∈ l') :
    N w'.name.expanded ∨ ∃ w ∈ l, w'.name.expanded = w.name.expanded ∧ w'.skip = w.skip := by
  induction h with
  | nil => simp at hw
  | unit h1 h2 _ _ _ ih | payload h1 h2 _ _ _ _ ih =>
    rcases List.mem_cons.mp hw with rfl | hw
    · exact .inr ⟨_, List.mem_cons_self .., h1, h2⟩
    · exact (ih hw).imp id fun ⟨w, a, b⟩ => ⟨w, List.mem_cons_of_mem _ a, b⟩
  | added h1 _ ih =>
    rcases List.mem_cons.mp hw with rfl | hw
    · exact .inl h1
    · exact ih hw

theorem variantOf_isNone (hok : EnvOk env) (e : Nat) (n : EName) :
    (variantOf (env.enm e) n).isNone = true ↔ ∀ w ∈ (env.enm e).variants, w.name.expanded ≠ n := by
  simp only [variantOf, Option.isNone_iff_eq_none, List.findIdx?_eq_none_iff]
  refine forall_congr' fun w => forall_congr' fun hw => ?_
  simp [hok.noSkip e w hw]

theorem variantOf_grow (hok : EnvOk env) (hok' : EnvOk env') (hg : Grown N M env env') (e : Nat) {n : EName} (hn : ¬ N n) :
    (variantOf (env.enm e) n).isNone = (variantOf (env'.enm e) n).isNone := by
  rw [Bool.eq_iff_iff, variantOf_isNone hok, variantOf_isNone hok']
  constructor
  · intro h w' hw' he
    rcases variant_from (hg.enums e) hw' with h1 | ⟨w, h1, h2, _⟩
    · exact hn (he ▸ h1)
    · exact h w h1 (h2 ▸ he)
  · intro h w hw he
    obtain ⟨j, hj⟩ := List.getElem?_of_mem hw
    obtain ⟨j', w', h1, h2, _⟩ := variant_to (hg.enums e) hj
    exact h w' (List.mem_of_getElem? h1) (h2.trans he)

theorem enumValue_grow (hok : EnvOk env) (hok' : EnvOk env') (hg : Grown N M env env') (e : Nat) {ks ks' : List Kid} (h : Kids N M env env' ks ks') {v : Val}
    (hv : enumValue (env.enm e) ks = some v) : ∃ v', enumValue (env'.enm e) ks' = some v' ∧ ValGrown N M env env' (.enm e) (.enm e) v v' := by
  rw [enumValue_iff env hok] at hv
  obtain ⟨j, w, h1, h2, h3, h4⟩ := hv
  obtain ⟨j', w', g1, g2, g3⟩ := variant_to (hg.enums e) h1
  have hne : named w'.name.expanded ks' ≠ [] := by
    rw [g2]
    exact fun hx => h2 ((rowwise_nil_iff (named_kids h _)).mp hx)
  have hun : ∀ u ∈ (env'.enm e).variants, named u.name.expanded ks' ≠ [] → u.name.expanded = w'.name.expanded := by
    intro u hu hnu
    rcases variant_from (hg.enums e) hu with a | ⟨u0, a, b, _⟩
    · exact absurd (named_fresh h a) hnu
    · rw [b, g2]
      rw [b] at hnu
      exact h3 u0 a fun hx => hnu ((rowwise_nil_iff (named_kids h _)).mpr hx)
  rcases g3 with ⟨s1, s2⟩ | ⟨s, s', s1, s2, s3⟩
  · simp only [s1] at h4
    subst h4
    refine ⟨.enm j' none, ?_, .unit h1 g1 g2 s1 s2⟩
    rw [enumValue_iff env' hok']
    exact ⟨j', w', g1, hne, hun, by simp only [s2]⟩
  · simp only [s1] at h4
    obtain ⟨p, p1, rfl⟩ := h4
    obtain ⟨p', q1, q2, q3, _, q4⟩ := slotValue_grow (named_kids h w.name.expanded) s3 (a' := none) h2 p1
    refine ⟨.enm j' (some p'), ?_, .payload h1 g1 g2 s1 s2 q2 q3 q4⟩
    rw [enumValue_iff env' hok']
    exact ⟨j', w', g1, hne, hun, by simp only [s2]; exact ⟨p', by rw [g2]; exact q1, rfl⟩⟩

/-! ### Structs -/

theorem past_grow (hok : EnvOk env) (hok' : EnvOk env') (hg : Grown N M env env') (es : List Nat) {ks ks' : List Kid} (h : Kids N M env env' ks ks') :
    Kids N M env env' (past env es ks) (past env' es ks') := by
  induction es generalizing ks ks' with
  | nil => exact h
  | cons e es ih => exact ih (rowwise_takeWhile2 (fun a b hab => by rw [hab.name]; exact variantOf_grow hok hok' hg e hab.fresh) h)

theorem declaredElem_cons (f : Field) (l : List Field) (n : EName) :
    declaredElem (f :: l) n = ((match f.kind with | .element _ => f.name.expanded == n | _ => false) || declaredElem l n) := by
  rfl

theorem flatTypes_cons (f : Field) (l : List Field) : flatTypes (f :: l) = flatTypes [f] ++ flatTypes l := by
  simp only [flatTypes]
  split <;> simp

theorem declaredElem_grow {free : Prop} {l l' : List Field} (h : FieldsGrown N M free l l') {n : EName} (hn : ¬ N n) :
    free ∨ declaredElem l n = declaredElem l' n := by
  induction h with
  | nil => exact .inr rfl
  | @kept f f' l l' h _ ih =>
    refine ih.imp id fun ih => ?_
    rw [declaredElem_cons, declaredElem_cons, ih]
    congr 1
    revert h
    simp only [FieldGrown]
    cases f.kind <;> cases f'.kind <;> simp
    intro h _ _
    rw [h]
  | @added f' l l' h _ _ ih =>
    refine ih.imp id fun ih => ?_
    rw [declaredElem_cons, ih]
    revert h
    simp only [Fresh]
    cases f'.kind <;> simp
    intro h he
    exact absurd (he ▸ h) hn
  | removedAttribute h _ ih =>
    refine ih.imp id fun ih => ?_
    rw [declaredElem_cons, ih, h]
    rfl
  | removedElement h _ _ _ => exact .inl h

theorem flat_free {free : Prop} {l l' : List Field} (h : FieldsGrown N M free l l') (hf : flatTypes l' = []) : flatTypes l = [] := by
  induction h with
  | nil => rfl
  | @kept f f' l l' h _ ih =>
    rw [flatTypes_cons] at hf ⊢
    rw [List.append_eq_nil_iff] at hf ⊢
    refine ⟨?_, ih hf.2⟩
    have h1 := hf.1
    revert h h1
    simp only [FieldGrown, flatTypes]
    cases f.kind <;> cases f'.kind <;> simp
  | added _ _ _ ih =>
    rw [flatTypes_cons, List.append_eq_nil_iff] at hf
    exact ih hf.2
  | removedAttribute h _ ih =>
    rw [flatTypes_cons, ih hf]
    simp [flatTypes, h]
  | removedElement _ h _ ih =>
    rw [flatTypes_cons, ih hf]
    simp [flatTypes, h]

theorem attrsNamed_fresh {a : List XAttr} (h : ∀ x ∈ a, ¬ M x.name.expanded) {n : EName} (hn : M n) : attrsNamed n a = [] := by
  simp only [attrsNamed, List.filter_eq_nil_iff, beq_iff_eq]
  intro x hx he
  exact h x hx (he ▸ hn)

theorem fieldsValue_grow (hok : EnvOk env) (hok' : EnvOk env') (hg : Grown N M env env') {free : Prop} {all all' : List Field} {b b' : Body}
    (hb : Kids N M env env' b.kids b'.kids) (ha : b'.attrs = b.attrs) (hm : ∀ x ∈ b.attrs, ¬ M x.name.expanded)
    (hstr : flatTypes all = [] ∨ Kids N M env env' (strangers all b.kids) (strangers all' b'.kids)) {l l' : List Field} (hl : FieldsGrown N M free l l') :
    ∀ {earlier : List Nat} {vs : List Val}, (∀ e ∈ flatTypes l, e ∈ flatTypes all) → fieldsValue env all b earlier l = some vs →
      ∃ vs', fieldsValue env' all' b' earlier l' = some vs' ∧ FieldsVals N M env env' l l' vs vs' := by
  induction hl with
  | nil =>
    intro earlier vs _ hv
    simp only [fieldsValue, Option.some.injEq] at hv
    subst hv
    exact ⟨[], rfl, .nil⟩
  | @added f' l l' hf habs _ ih =>
    intro earlier vs hfl hv
    have hflat : flatTypes [f'] = [] := by
      revert hf
      simp only [Fresh, flatTypes]
      cases f'.kind <;> simp
    obtain ⟨vs', h1, h2⟩ := ih hfl hv
    obtain ⟨v', hv'⟩ := Option.isSome_iff_exists.mp habs
    refine ⟨v' :: vs', ?_, .added hf hv' h2⟩
    have : fieldValue env' all' b' earlier f' = some v' := by
      revert hf hv'
      simp only [Fresh, fieldValue, absentOf]
      cases hk : f'.kind with
      | element s =>
        intro hf hv'
        simp only [named_fresh hb hf, slotValue]
        exact hv'
      | «attribute» o t =>
        intro hf hv'
        simp only [ha, attrsNamed_fresh hm hf, attrValue]
        cases o <;> simpa [slotOf, slotAbsent, attrAbsent] using hv'
      | flatten e => intro hf; exact absurd hf (by simp)
      | text t => intro hf; exact absurd hf (by simp)
    simp only [fieldsValue, this, hflat, List.append_nil, h1]
  | @removedAttribute f o t l l' hk _ ih =>
    intro earlier vs hfl hv
    have hflat : flatTypes [f] = [] := by simp [flatTypes, hk]
    simp only [fieldsValue, hflat, List.append_nil] at hv
    split at hv
    · rename_i v ws _ h2
      obtain ⟨vs', h3, h4⟩ := ih (fun e he => hfl e (by rw [flatTypes_cons, hflat]; simpa using he)) h2
      simp only [Option.some.injEq] at hv
      subst hv
      exact ⟨vs', h3, .removed (by simp [hk]) h4⟩
    · simp at hv
  | @removedElement f s l l' _ hk _ ih =>
    intro earlier vs hfl hv
    have hflat : flatTypes [f] = [] := by simp [flatTypes, hk]
    simp only [fieldsValue, hflat, List.append_nil] at hv
    split at hv
    · rename_i v ws _ h2
      obtain ⟨vs', h3, h4⟩ := ih (fun e he => hfl e (by rw [flatTypes_cons, hflat]; simpa using he)) h2
      simp only [Option.some.injEq] at hv
      subst hv
      exact ⟨vs', h3, .removed (by simp [hk]) h4⟩
    · simp at hv
  | @kept f f' l l' hf _ ih =>
    intro earlier vs hfl hv
    have hflat : flatTypes [f'] = flatTypes [f] := by
      revert hf
      simp only [FieldGrown, flatTypes]
      cases f.kind <;> cases f'.kind <;> simp
    simp only [fieldsValue] at hv
    split at hv
    · rename_i v ws h1 h2
      obtain ⟨vs', h3, h4⟩ := ih (fun e he => hfl e (by rw [flatTypes_cons]; simp [he])) h2
      simp only [Option.some.injEq] at hv
      subst hv
      have hf0 := hf
      have key : ∃ v', fieldValue env' all' b' earlier f' = some v' ∧ FieldsVals N M env env' (f :: l) (f' :: l') (v :: ws) (v' :: vs') := by
        revert hf
        simp only [FieldGrown]
        cases hk : f.kind with
        | element s =>
          cases hk' : f'.kind with
          | element s' =>
            rintro ⟨hn, hs, habs⟩
            simp only [fieldValue, hk, hk'] at h1 ⊢
            rw [hn]
            by_cases hne : named f.name.expanded b.kids = []
            · rw [hne] at h1
              rw [(rowwise_nil_iff (named_kids hb _)).mpr hne]
              have e1 : absentOf f = some v := by simpa [absentOf, slotOf, hk, slotValue] using h1
              obtain ⟨v', hv'⟩ := Option.isSome_iff_exists.mp (habs (by simp [e1]))
              exact ⟨v', by simpa [absentOf, slotOf, hk', slotValue] using hv', .absent hf0 e1 hv' h4⟩
            · obtain ⟨v', q1, q2, q3, q4, q5⟩ := slotValue_grow (named_kids hb _) hs (a' := f'.default.or (slotAbsent s')) hne h1
              exact ⟨v', q1, .present hf0 (by simp [hk, slotOf]) (by simp [hk', slotOf]) q2 q3 q4 q5 h4⟩
          | _ => simp
        | «attribute» o t =>
          cases hk' : f'.kind with
          | «attribute» o' t' =>
            rintro ⟨hn, ht, habs⟩
            simp only [fieldValue, hk, hk', ha] at h1 ⊢
            rw [hn]
            revert h1
            generalize attrsNamed f.name.expanded b.attrs = as
            intro h1
            rcases as with _ | ⟨x, _ | ⟨y, as⟩⟩
            · have e1 : absentOf f = some v := by cases o <;> simpa [absentOf, slotOf, hk, attrValue, attrAbsent, slotAbsent] using h1
              obtain ⟨v', hv'⟩ := Option.isSome_iff_exists.mp (habs (by simp [e1]))
              exact ⟨v', by cases o' <;> simpa [absentOf, slotOf, hk', attrValue, attrAbsent, slotAbsent] using hv', .absent hf0 e1 hv' h4⟩
            · simp only [attrValue] at h1 ⊢
              split at h1
              · rename_i tv htv
                obtain ⟨tv', htv'⟩ := ht _ _ htv
                simp only [Option.some.injEq] at h1
                subst h1
                rw [htv']
                refine ⟨_, rfl, .present hf0 (s := ⟨if o then .opt else .one, .text t⟩) (s' := ⟨if o' then .opt else .one, .text t'⟩) (by simp [hk, slotOf]) (by simp [hk', slotOf]) ?_ ?_ ?_ ?_ h4⟩
                · cases o <;> simp [CardOk]
                · cases o' <;> simp [CardOk]
                · cases o <;> simp [valuesOf]
                · cases o <;> cases o' <;> exact .cons (.text htv htv') .nil
              · simp at h1
            · simp [attrValue] at h1
          | _ => simp
        | flatten e =>
          cases hk' : f'.kind with
          | flatten e' =>
            intro he
            simp only at he
            subst he
            simp only [fieldValue, hk, hk'] at h1 ⊢
            have hst := hstr.resolve_left fun hx => by
              have := hfl e' (by simp [flatTypes, hk])
              rw [hx] at this
              simp at this
            obtain ⟨v', q1, q2⟩ := enumValue_grow hok hok' hg e' (past_grow hok hok' hg earlier hst) h1
            exact ⟨v', q1, .flatten hk hk' q2 h4⟩
          | _ => simp
        | text t => cases f'.kind <;> simp
      obtain ⟨v', k1, k2⟩ := key
      exact ⟨v' :: vs', by simp only [fieldsValue, k1, hflat, h3], k2⟩
    · simp at hv

theorem bodyValue_grow (hok : EnvOk env) (hok' : EnvOk env') (hg : Grown N M env env') {b b' : Body} (hb : Kids N M env env' b.kids b'.kids)
    (ha : b'.attrs = b.attrs) (ht : b'.text = b.text) (hm : ∀ x ∈ b.attrs, ¬ M x.name.expanded) {ty ty' : Ty} (hty : TyGrown ty ty') {v : Val}
    (hv : bodyValue env b ty = some v) : ∃ v', bodyValue env' b' ty' = some v' ∧ ValGrown N M env env' ty ty' v v' := by
  cases hty with
  | @text t t' hg =>
    simp only [bodyValue, ht] at hv ⊢
    cases hk : b.kids with
    | cons k l => simp [hk] at hv
    | nil =>
      rw [(rowwise_nil_iff hb).mpr hk]
      rw [hk] at hv
      dsimp only at hv ⊢
      split at hv
      · rename_i tv htv
        obtain ⟨tv', htv'⟩ := hg _ _ htv
        simp only [Option.some.injEq] at hv
        subst hv
        exact ⟨.text tv', by simp only [htv'], .text htv htv'⟩
      · simp at hv
  | strct i =>
    simp only [bodyValue, structValue, Option.map_eq_some_iff] at hv ⊢
    obtain ⟨vs, h1, rfl⟩ := hv
    have hs := hg.structs i
    have hstr : flatTypes (env.strct i).fields = [] ∨ Kids N M env env' (strangers (env.strct i).fields b.kids) (strangers (env'.strct i).fields b'.kids) := by
      by_cases hf : flatTypes (env'.strct i).fields = []
      · exact .inl (flat_free hs hf)
      · refine .inr (rowwise_filter2 (fun a c hac => ?_) hb)
        rw [hac.name, (declaredElem_grow hs hac.fresh).resolve_left hf]
    obtain ⟨vs', h2, h3⟩ := fieldsValue_grow hok hok' hg hb ha hm hstr hs (fun e he => he) h1
    exact ⟨.strct vs', ⟨vs', h2, rfl⟩, .strct h3⟩
  | enm i => exact enumValue_grow hok hok' hg i hb hv

theorem kids_grow (hok : EnvOk env) (hok' : EnvOk env') (hg : Grown N M env env') (f : Forest) (h : Avoids N M f) : Kids N M env env' (kids env f) (kids env' f) := by
  induction f with
  | nil => exact .nil
  | elem n a _ p ch _ rest ih1 ih2 =>
    obtain ⟨h1, h2, h3, h4⟩ := h
    exact .cons ⟨rfl, h1, fun hty hv => bodyValue_grow hok hok' hg (b := { attrs := a, kids := kids env ch, text := ch.text })
      (b' := { attrs := a, kids := kids env' ch, text := ch.text }) (ih1 h3) rfl rfl h2 hty hv⟩ (ih2 h4)
  | chars _ _ _ rest ih => exact ih h
  | misc _ _ rest ih => exact ih h

/-! ### Types that stay the same -/

theorem textGrown_refl (t : TextTy) : TextGrown t t := fun _ v h => ⟨v, h⟩

theorem tyGrown_refl : (ty : Ty) → TyGrown ty ty
  | .text t => .text (textGrown_refl t)
  | .strct i => .strct i
  | .enm i => .enm i

theorem slotGrown_refl (s : Slot) : SlotGrown s s := ⟨id, tyGrown_refl s.ty⟩

theorem fieldGrown_refl (f : Field) (h : ∀ t, f.kind ≠ .text t) : FieldGrown f f := by
  unfold FieldGrown
  cases hk : f.kind with
  | element s => exact ⟨rfl, slotGrown_refl s, id⟩
  | «attribute» o t => exact ⟨rfl, textGrown_refl t, id⟩
  | flatten e => rfl
  | text t => exact absurd hk (h t)

theorem fieldsGrown_refl (free : Prop) (l : List Field) (h : ∀ f ∈ l, ∀ t, f.kind ≠ .text t) : FieldsGrown N M free l l := by
  induction l with
  | nil => exact .nil
  | cons f l ih => exact .kept (fieldGrown_refl f (h f (List.mem_cons_self ..))) (ih fun g hg => h g (List.mem_cons_of_mem _ hg))

theorem variantsGrown_refl (l : List Variant) : VariantsGrown N l l := by
  induction l with
  | nil => exact .nil
  | cons w l ih =>
    cases hs : w.slot with
    | none => exact .unit rfl rfl hs hs ih
    | some s => exact .payload rfl rfl hs hs (slotGrown_refl s) ih

/-! ### What the old version writes -/

/-- No element or attribute is named thus. -/
def EAvoids (N M : EName → Prop) : EForest → Prop
  | .nil => True
  | .elem n a ch rest => ¬ N n ∧ (∀ x ∈ a, ¬ M x.1) ∧ EAvoids N M ch ∧ EAvoids N M rest
  | .chars _ rest => EAvoids N M rest

theorem denotes_avoids {g : EForest} {f : Forest} (h : Denotes g f) (hg : EAvoids N M g) : Avoids N M f := by
  induction h with
  | nil => trivial
  | elem hn ha _ _ ih1 ih2 =>
    obtain ⟨h1, h2, h3, h4⟩ := hg
    refine ⟨hn ▸ h1, fun x hx => ?_, ih1 h3, ih2 h4⟩
    exact h2 (x.name.expanded, x.value) (ha ▸ List.mem_map.mpr ⟨x, hx, rfl⟩)
  | chars _ _ ih | blank _ _ ih => exact ih hg
  | misc _ ih => exact ih hg

theorem structAttrs_avoids (hN : NewNames env N M) (i : Nat) (vs : List Val) : ∀ x ∈ structAttrs (env.strct i).fields vs, ¬ M x.1 := by
  intro x hx
  obtain ⟨⟨f, v⟩, h1, h2⟩ := List.mem_filterMap.mp hx
  have hf := (List.of_mem_zip h1).1
  dsimp only at h2
  split at h2
  · rename_i o t hk
    obtain ⟨s, -, rfl⟩ := Option.map_eq_some_iff.mp h2
    exact hN.attrs i f o t hf hk
  · simp at h2

theorem variantItems_avoids (hN : NewNames env N M) (e : Nat) (v : Val) : ∀ it ∈ variantItems (env.enm e) v, ¬ N it.name := by
  intro it hit
  unfold variantItems at hit
  split at hit
  · rename_i j p
    split at hit
    · simp at hit
    · rename_i w hw
      have := hN.variants e w (List.mem_of_getElem? hw)
      split at hit
      · simp at hit
      · split at hit
        · simp only [List.mem_singleton] at hit
          subst hit
          exact this
        · simp only [fieldItems, List.mem_map] at hit
          obtain ⟨x, -, rfl⟩ := hit
          exact this
        · simp at hit
  · simp at hit

theorem structItems_avoids (hN : NewNames env N M) (i : Nat) (vs : List Val) : ∀ it ∈ structItems env (env.strct i).fields vs, ¬ N it.name := by
  intro it hit
  simp only [structItems, List.mem_append, List.mem_flatMap] at hit
  rcases hit with ⟨⟨f, v⟩, h1, h2⟩ | ⟨⟨f, v⟩, h1, h2⟩
  · have hf := (List.of_mem_zip h1).1
    dsimp only at h2
    split at h2
    · rename_i s hk
      simp only [fieldItems, List.mem_map] at h2
      obtain ⟨x, -, rfl⟩ := h2
      exact hN.elems i f s hf hk
    · simp at h2
  · dsimp only at h2
    split at h2
    · exact variantItems_avoids hN _ _ it h2
    · simp at h2

theorem shows_avoids (hN : NewNames env N M) {items : List Item} {g : EForest} (h : Shows env items g) (hi : ∀ it ∈ items, ¬ N it.name) : EAvoids N M g := by
  induction h with
  | nil => trivial
  | unit _ ih => exact ⟨hi _ (List.mem_cons_self ..), by simp, trivial, ih fun it h => hi it (List.mem_cons_of_mem _ h)⟩
  | text _ _ ih => exact ⟨hi _ (List.mem_cons_self ..), by simp, trivial, ih fun it h => hi it (List.mem_cons_of_mem _ h)⟩
  | strct _ _ ih1 ih2 =>
    exact ⟨hi _ (List.mem_cons_self ..), structAttrs_avoids hN _ _, ih1 (structItems_avoids hN _ _), ih2 fun it h => hi it (List.mem_cons_of_mem _ h)⟩
  | enm _ _ ih1 ih2 =>
    exact ⟨hi _ (List.mem_cons_self ..), by simp, ih1 (variantItems_avoids hN _ _), ih2 fun it h => hi it (List.mem_cons_of_mem _ h)⟩

/-- Apart from the name of the root. -/
theorem represents_avoids (hN : NewNames env N M) {name : EName} {ty : Ty} {v : Val} {as : List (EName × String)} {g : EForest}
    (h : Represents env name ty v as g) : (∀ x ∈ as, ¬ M x.1) ∧ EAvoids N M g := by
  cases h with
  | text _ _ => exact ⟨by simp, trivial⟩
  | strct h _ => exact ⟨structAttrs_avoids hN _ _, shows_avoids hN h (structItems_avoids hN _ _)⟩
  | enm h _ => exact ⟨by simp, shows_avoids hN h (variantItems_avoids hN _ _)⟩

end
end SX.Grow
