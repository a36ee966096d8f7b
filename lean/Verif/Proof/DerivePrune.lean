import Verif.Proof.DeriveProps

/-
Unknown content does not matter (C20); flattened fields get what they are offered (C24).
-/
namespace SX
open Spec

/-- `ks'` is `ks` without unknown children and with the rest unchanged as far as they are used. -/
inductive Rel (U : EName → Use) : List Kid → List Kid → Prop where
  | nil : Rel U [] []
  | skip {k ks ks'} : U k.name = .unknown → Rel U ks ks' → Rel U (k :: ks) ks'
  | keep {k k' ks ks'} : k'.name = k.name → (∀ ty, U k.name = .as ty → k.as ty = k'.as ty) → Rel U ks ks' →
      Rel U (k :: ks) (k' :: ks')

theorem Rel.filter {U : EName → Use} {ks ks' : List Kid} (h : Rel U ks ks') (p : EName → Bool) :
    Rel U (ks.filter fun k => p k.name) (ks'.filter fun k => p k.name) := by
  induction h with
  | nil => exact .nil
  | @skip k ks ks' h1 _ ih =>
    rw [List.filter_cons]
    split
    · exact .skip h1 ih
    · exact ih
  | @keep k k' ks ks' h1 h2 _ ih =>
    rw [List.filter_cons, List.filter_cons, h1]
    split
    · exact .keep h1 h2 ih
    · exact ih

theorem Rel.takeWhile {U : EName → Use} {ks ks' : List Kid} (h : Rel U ks ks') (p : EName → Bool)
    (hp : ∀ k ∈ ks, U k.name = .unknown → p k.name = true) :
    Rel U (ks.takeWhile fun k => p k.name) (ks'.takeWhile fun k => p k.name) := by
  induction h with
  | nil => exact .nil
  | @skip k ks ks' h1 _ ih =>
    rw [List.takeWhile_cons, hp k List.mem_cons_self h1]
    exact .skip h1 (ih fun k hk => hp k (List.mem_cons_of_mem _ hk))
  | @keep k k' ks ks' h1 h2 _ ih =>
    rw [List.takeWhile_cons, List.takeWhile_cons, h1]
    split
    · exact .keep h1 h2 (ih fun k hk => hp k (List.mem_cons_of_mem _ hk))
    · exact .nil

/-- Lists of children with the same values as `ty`. -/
def SameAs (ty : Ty) (ks ks' : List Kid) : Prop := ks.map (fun k => k.as ty) = ks'.map fun k => k.as ty

theorem Rel.sameAs {U : EName → Use} {ty : Ty} {ks ks' : List Kid} (h : Rel U ks ks') (hall : ∀ k ∈ ks, U k.name = .as ty) :
    SameAs ty ks ks' := by
  induction h with
  | nil => rfl
  | @skip k ks ks' h1 _ ih => rw [hall k List.mem_cons_self] at h1; simp at h1
  | @keep k k' ks ks' h1 h2 _ ih =>
    simp only [SameAs, List.map_cons]
    rw [h2 ty (hall k List.mem_cons_self)]
    have := ih fun k hk => hall k (List.mem_cons_of_mem _ hk)
    rw [SameAs] at this
    rw [this]

theorem allAs_sameAs {ty : Ty} {ks ks' : List Kid} (h : SameAs ty ks ks') : allAs ty ks = allAs ty ks' := by
  induction ks generalizing ks' with
  | nil =>
    cases ks' with
    | nil => rfl
    | cons _ _ => simp [SameAs] at h
  | cons k ks ih =>
    cases ks' with
    | nil => simp [SameAs] at h
    | cons k' ks' =>
      simp only [SameAs, List.map_cons, List.cons.injEq] at h
      simp only [allAs, h.1, ih h.2]

theorem slotValue_sameAs (s : Slot) (a : Option Val) {ks ks' : List Kid} (h : SameAs s.ty ks ks') :
    slotValue s a ks = slotValue s a ks' := by
  cases ks with
  | nil =>
    cases ks' with
    | nil => rfl
    | cons _ _ => simp [SameAs] at h
  | cons k ks =>
    cases ks' with
    | nil => simp [SameAs] at h
    | cons k' ks' =>
      have h1 := allAs_sameAs h
      have h2 := h
      simp only [SameAs, List.map_cons, List.cons.injEq] at h2
      have h3 : ks.isEmpty = ks'.isEmpty := by
        have := congrArg List.isEmpty h2.2
        simpa using this
      simp only [slotValue, h1, h2.1, h3]

theorem enumUse_known {d : EnumDef} {n : EName} {i : Nat} (h : variantOf d n = some i) : enumUse d n ≠ .unknown := by
  obtain ⟨v, h1, -⟩ := variantOf_some h
  unfold enumUse
  rw [h]
  simp only [h1]
  split <;> simp

theorem enumUse_unknown {d : EnumDef} {n : EName} (h : enumUse d n = .unknown) : variantOf d n = none := by
  cases hv : variantOf d n with
  | none => rfl
  | some i => exact absurd h (enumUse_known hv)

/-- The children of an enum in related lists. -/
theorem Rel.choices {U : EName → Use} {d : EnumDef} {ks ks' : List Kid} (h : Rel U ks ks')
    (hU : ∀ k ∈ ks, variantOf d k.name ≠ none → U k.name = enumUse d k.name) :
    (Spec.choices d ks).map Prod.fst = (Spec.choices d ks').map Prod.fst ∧
    ∀ i v s, d.variants[i]? = some v → v.slot = some s → (∀ c ∈ Spec.choices d ks, c.1 = i) →
      SameAs s.ty ((Spec.choices d ks).map Prod.snd) ((Spec.choices d ks').map Prod.snd) := by
  induction h with
  | nil => exact ⟨rfl, fun _ _ _ _ _ _ => rfl⟩
  | @skip k ks ks' h1 _ ih =>
    have hn : variantOf d k.name = none := by
      cases hv : variantOf d k.name with
      | none => rfl
      | some i =>
        have := hU k List.mem_cons_self (by simp [hv])
        rw [h1] at this
        exact absurd this.symm (enumUse_known hv)
    rw [show k :: ks = [k] ++ ks from rfl, choices_append, choices_none d k hn, List.nil_append]
    exact ih fun k hk => hU k (List.mem_cons_of_mem _ hk)
  | @keep k k' ks ks' h1 h2 _ ih =>
    obtain ⟨ih1, ih2⟩ := ih fun k hk => hU k (List.mem_cons_of_mem _ hk)
    rw [show k :: ks = [k] ++ ks from rfl, show k' :: ks' = [k'] ++ ks' from rfl, choices_append, choices_append]
    cases hv : variantOf d k.name with
    | none =>
      rw [choices_none d k hv, choices_none d k' (by rw [h1]; exact hv)]
      exact ⟨ih1, ih2⟩
    | some i =>
      rw [choices_some d k hv, choices_some d k' (by rw [h1]; exact hv)]
      refine ⟨by simp [ih1], ?_⟩
      intro j v s hj hs hall
      have hij : i = j := hall (i, k) (by simp)
      subst hij
      have hu := hU k List.mem_cons_self (by simp [hv])
      have hu' : U k.name = .as s.ty := by
        rw [hu]
        unfold enumUse
        rw [hv]
        simp only [hj, hs]
      have := ih2 i v s hj hs fun c hc => hall c (by simp [hc])
      simp only [SameAs, List.cons_append, List.nil_append, List.map_cons] at this ⊢
      rw [h2 _ hu', this]

theorem enumValue_rel {U : EName → Use} {d : EnumDef} {ks ks' : List Kid} (h : Rel U ks ks')
    (hU : ∀ k ∈ ks, variantOf d k.name ≠ none → U k.name = enumUse d k.name) : enumValue d ks = enumValue d ks' := by
  obtain ⟨h1, h2⟩ := h.choices hU
  unfold enumValue
  cases hc : choices d ks with
  | nil =>
    rw [hc] at h1
    cases hc' : choices d ks' with
    | nil => rfl
    | cons _ _ => rw [hc'] at h1; simp at h1
  | cons c rest =>
    rw [hc] at h1
    cases hc' : choices d ks' with
    | nil => rw [hc'] at h1; simp at h1
    | cons c' rest' =>
      rw [hc'] at h1
      simp only [List.map_cons, List.cons.injEq] at h1
      obtain ⟨hcc, hrr⟩ := h1
      obtain ⟨i, k⟩ := c
      obtain ⟨i', k'⟩ := c'
      simp only at hcc
      subst hcc
      have hall : rest.all (fun c => c.1 == i) = rest'.all (fun c => c.1 == i) := by
        have e1 : ∀ l : List (Nat × Kid), l.all (fun c => c.1 == i) = (l.map Prod.fst).all (fun j => j == i) := by
          intro l; rw [List.all_map]; rfl
        rw [e1, e1, hrr]
      simp only
      rw [← hall]
      split
      · rename_i hall'
        cases hv : d.variants[i]? with
        | none => rfl
        | some v =>
          simp only
          cases hs : v.slot with
          | none => rfl
          | some s =>
            simp only
            have := h2 i v s hv hs (by
              rw [hc]
              intro c hcm
              rcases List.mem_cons.mp hcm with rfl | hcm
              · rfl
              · simpa using List.all_eq_true.mp hall' c hcm)
            rw [hc, hc'] at this
            simp only [List.map_cons] at this
            rw [slotValue_sameAs s none this]
      · rfl

theorem flatUse_known (env : Env) (es : List Nat) (n : EName) (h : flatUse env es n = .unknown) (e : Nat) (he : e ∈ es) :
    variantOf (env.enm e) n = none := by
  induction es with
  | nil => simp at he
  | cons e' es ih =>
    unfold flatUse at h
    split at h
    · rename_i hu
      rcases List.mem_cons.mp he with rfl | he
      · exact enumUse_unknown hu
      · exact ih h he
    · rename_i hu; exact absurd h hu

theorem flatUse_pre (env : Env) (pre es : List Nat) (n : EName) (h : ∀ e ∈ pre, variantOf (env.enm e) n = none) :
    flatUse env (pre ++ es) n = flatUse env es n := by
  induction pre with
  | nil => rfl
  | cons e pre ih =>
    simp only [List.cons_append, flatUse]
    have : enumUse (env.enm e) n = .unknown := by
      unfold enumUse
      rw [h e List.mem_cons_self]
    rw [this]
    exact ih fun e he => h e (List.mem_cons_of_mem _ he)

theorem flatUse_head (env : Env) (e : Nat) (es : List Nat) (n : EName) (h : variantOf (env.enm e) n ≠ none) :
    flatUse env (e :: es) n = enumUse (env.enm e) n := by
  obtain ⟨i, hi⟩ := Option.ne_none_iff_exists'.mp h
  have := enumUse_known hi
  simp only [flatUse]

theorem mem_past (env : Env) (es : List Nat) (ks : List Kid) (k : Kid) (h : k ∈ past env es ks) :
    ∀ e ∈ es, variantOf (env.enm e) k.name = none := by
  induction es generalizing ks with
  | nil => simp
  | cons e es ih =>
    intro e' he'
    rcases List.mem_cons.mp he' with rfl | he'
    · have h1 := past_subset env es _ _ h
      have : ∀ (l : List Kid), k ∈ l.takeWhile (fun k => (variantOf (env.enm e') k.name).isNone) →
          (variantOf (env.enm e') k.name).isNone = true := by
        intro l
        induction l with
        | nil => simp
        | cons a l ih =>
          intro hm
          rw [List.takeWhile_cons] at hm
          split at hm
          · rename_i ha
            rcases List.mem_cons.mp hm with rfl | hm
            · exact ha
            · exact ih hm
          · simp at hm
      simpa using this _ h1
    · exact ih _ h e' he'

theorem past_rel {U : EName → Use} {env : Env} {ks ks' : List Kid} (es : List Nat) (h : Rel U ks ks')
    (hU : ∀ k ∈ ks, U k.name = .unknown → ∀ e ∈ es, variantOf (env.enm e) k.name = none) :
    Rel U (past env es ks) (past env es ks') := by
  induction es generalizing ks ks' with
  | nil => exact h
  | cons e es ih =>
    refine ih ?_ ?_
    · exact h.takeWhile (fun n => (variantOf (env.enm e) n).isNone) fun k hk hu => by
        rw [hU k hk hu e List.mem_cons_self]; rfl
    · intro k hk hu e' he'
      exact hU k ((List.takeWhile_prefix _).subset hk) hu e' (List.mem_cons_of_mem _ he')

theorem elemUse_unknown (fields : List Field) (n : EName) (h : declaredElem fields n = false) : elemUse fields n = .unknown := by
  induction fields with
  | nil => rfl
  | cons f fs ih =>
    simp only [declaredElem, List.any_cons, Bool.or_eq_false_iff] at h
    unfold elemUse
    split
    · rename_i s hk
      simp only [hk, beq_eq_false_iff_ne] at h
      rw [if_neg h.1]
      exact ih h.2
    · exact ih h.2

theorem elemUse_declared (fields : List Field) (f : Field) (s : Slot) (hf : f ∈ fields) (hk : f.kind = .element s)
    (huniq : ∀ g ∈ fields, ∀ s', g.kind = .element s' → g.name.expanded = f.name.expanded → g = f) :
    elemUse fields f.name.expanded = .as s.ty := by
  induction fields with
  | nil => simp at hf
  | cons g fs ih =>
    have hrest : elemUse fs f.name.expanded = .as s.ty ∨ g = f := by
      rcases List.mem_cons.mp hf with rfl | hf
      · exact .inr rfl
      · exact .inl (ih hf fun g hg => huniq g (List.mem_cons_of_mem _ hg))
    unfold elemUse
    split
    · rename_i s' hk'
      split
      · rename_i hn
        have := huniq g List.mem_cons_self s' hk' hn
        rw [this, hk] at hk'
        simp only [Kind.element.injEq] at hk'
        rw [hk']
      · rename_i hn
        rcases hrest with h | h
        · exact h
        · rw [h] at hn; exact absurd rfl hn
    · rename_i hk'
      rcases hrest with h | h
      · exact h
      · rw [h] at hk'; exact absurd hk (hk' s)

theorem attrsNamed_known (fields : List Field) (f : Field) (o : Bool) (t : TextTy) (hf : f ∈ fields)
    (hk : f.kind = .attribute o t) (l : List XAttr) :
    attrsNamed f.name.expanded (l.filter fun a => declaredAttr fields a.name.expanded) = attrsNamed f.name.expanded l := by
  unfold attrsNamed
  rw [List.filter_filter]
  apply List.filter_congr
  intro a _
  by_cases h : a.name.expanded = f.name.expanded
  · have : declaredAttr fields a.name.expanded = true := List.any_eq_true.mpr ⟨f, hf, by simp [hk, h]⟩
    simp [this]
  · simp [h]

theorem bodyValue_rel (env : Env) (hok : EnvOk env) (ty : Ty) (a : List XAttr) (ks ks' : List Kid) (t t' : String)
    (h : Rel (use env ty) ks ks') (ht : (∃ x, ty = .text x) → t = t') :
    bodyValue env { attrs := a, kids := ks, text := t } ty =
      bodyValue env { attrs := knownAttrs env ty a, kids := ks', text := t' } ty := by
  cases ty with
  | text x =>
    rw [ht ⟨x, rfl⟩]
    simp only [bodyValue]
    cases h with
    | nil => rfl
    | skip h1 _ => simp [use] at h1
    | keep h1 h2 _ => rfl
  | enm i => exact enumValue_rel h fun _ _ _ => rfl
  | strct i =>
    simp only [bodyValue, structValue]
    rw [fieldsValue_congr env _ _ { attrs := knownAttrs env (.strct i) a, kids := ks', text := t' } []]
    intro pre f post hf
    have hmem : f ∈ (env.strct i).fields := by rw [hf]; simp
    unfold fieldValue
    split
    · rename_i s hk
      apply slotValue_sameAs
      apply Rel.sameAs (U := use env (.strct i)) (h.filter fun n => n == f.name.expanded)
      intro k hkk
      have hkn : k.name = f.name.expanded := by simpa using (List.mem_filter.mp hkk).2
      have hu : elemUse (env.strct i).fields f.name.expanded = .as s.ty := by
        apply elemUse_declared _ _ _ hmem hk
        intro g hg s' hk' hn
        obtain ⟨p, hp⟩ := List.getElem?_of_mem hmem
        obtain ⟨q, hq⟩ := List.getElem?_of_mem hg
        have := hok.elems i q p g f s' s hq hp hk' hk hn
        subst this
        rw [hq] at hp
        simpa using hp
      simp only [use, hkn, hu]
    · rename_i o t hk
      simp only [knownAttrs]
      rw [attrsNamed_known _ f o t hmem hk]
    · rename_i e hk
      have hS : ∀ k ∈ strangers (env.strct i).fields ks,
          use env (.strct i) k.name = flatUse env (flatTypes (env.strct i).fields) k.name := by
        intro k hkk
        have : declaredElem (env.strct i).fields k.name = false := by simpa using (List.mem_filter.mp hkk).2
        simp only [use, elemUse_unknown _ _ this]
      have hft : flatTypes (env.strct i).fields = flatTypes pre ++ e :: flatTypes post := by
        rw [hf, flatTypes_append]
        simp [flatTypes, hk]
      have hstr : Rel (use env (.strct i)) (strangers (env.strct i).fields ks) (strangers (env.strct i).fields ks') :=
        h.filter fun n => !declaredElem (env.strct i).fields n
      apply enumValue_rel (U := use env (.strct i))
      · apply past_rel _ hstr
        intro k hkk hu e' he'
        rw [hS k hkk] at hu
        exact flatUse_known env _ _ hu e' (by rw [hft]; simp at he' ⊢; exact .inl he')
      · intro k hkk hv
        have h1 := past_subset _ _ _ _ hkk
        rw [hS k h1, hft, flatUse_pre env (flatTypes pre) _ _ (by simpa using mem_past env _ _ _ hkk)]
        exact flatUse_head env e _ _ hv
    · rfl

theorem text_prune (env : Env) (t : TextTy) (f : Forest) : (prune env (.text t) f).text = f.text := by
  induction f with
  | nil => rfl
  | elem n a ns p ch ep rest _ ih => exact ih
  | chars s c p rest ih => simp only [prune, Forest.text, ih]
  | misc m p rest ih => exact ih

theorem prune_rel (env : Env) (hok : EnvOk env) (f : Forest) (ty : Ty) :
    Rel (use env ty) (kids env f) (kids env (prune env ty f)) := by
  induction f generalizing ty with
  | nil => exact .nil
  | elem n a ns p ch ep rest ihc ihr =>
    unfold prune
    have key : ∀ u, use env ty n.expanded = u → Rel (use env ty) (kids env (.elem n a ns p ch ep rest))
        (kids env (match u with
          | .unknown => prune env ty rest
          | .unit => .elem n [] ns p .nil ep (prune env ty rest)
          | .as ty' => .elem n (knownAttrs env ty' a) ns p (prune env ty' ch) ep (prune env ty rest))) := by
      intro u hu
      cases u with
      | unknown => exact .skip hu (ihr ty)
      | unit =>
        refine .keep rfl ?_ (ihr ty)
        intro ty' hty
        have h : use env ty n.expanded = .as ty' := hty
        rw [hu] at h
        simp at h
      | as ty' =>
        refine .keep rfl ?_ (ihr ty)
        intro ty'' hty
        have h : use env ty n.expanded = .as ty'' := hty
        rw [hu] at h
        simp only [Use.as.injEq] at h
        subst h
        apply bodyValue_rel env hok _ _ _ _ _ _ (ihc ty')
        rintro ⟨x, rfl⟩
        exact (text_prune env x ch).symm
    exact key _ rfl
  | chars s c p rest ih =>
    cases ty with
    | text t => exact ih _
    | strct i => exact ih _
    | enm i => exact ih _
  | misc m p rest ih => exact ih ty

theorem bodyValue_prune (env : Env) (hok : EnvOk env) (ty : Ty) (x : Elem) :
    bodyValue env (x.body env) ty = bodyValue env ((x.prune env ty).body env) ty := by
  apply bodyValue_rel env hok _ _ _ _ _ _ (prune_rel env hok x.children ty)
  rintro ⟨t, rfl⟩
  exact (text_prune env t _).symm

/-! ## Flattened fields -/

theorem fieldsValue_get (env : Env) (all : List Field) (b : Body) (earlier : List Nat) (pre : List Field) (f : Field)
    (post : List Field) (vs : List Val) (h : fieldsValue env all b earlier (pre ++ f :: post) = some vs) :
    fieldValue env all b (earlier ++ flatTypes pre) f = vs[pre.length]? ∧ pre.length < vs.length := by
  induction pre generalizing earlier vs with
  | nil =>
    simp only [List.nil_append, fieldsValue] at h
    split at h
    · rename_i v vs' h1 h2
      simp only [Option.some.injEq] at h
      subst h
      simp [flatTypes, h1]
    · simp at h
  | cons g pre ih =>
    simp only [List.cons_append, fieldsValue] at h
    split at h
    · rename_i v vs' h1 h2
      simp only [Option.some.injEq] at h
      subst h
      have := ih _ _ h2
      rw [List.append_assoc, ← flatTypes_append] at this
      simpa using this
    · simp at h

theorem fieldsValue_length (env : Env) (all : List Field) (b : Body) (earlier : List Nat) (fields : List Field) (vs : List Val)
    (h : fieldsValue env all b earlier fields = some vs) : vs.length = fields.length := by
  induction fields generalizing earlier vs with
  | nil => simp only [fieldsValue, Option.some.injEq] at h; subst h; rfl
  | cons f fields ih =>
    simp only [fieldsValue] at h
    split at h
    · rename_i v vs' h1 h2
      simp only [Option.some.injEq] at h
      subst h
      simp [ih _ _ h2]
    · simp at h

def sharesOf (env : Env) : List Nat → List Kid → List (Nat × List Kid)
  | [], _ => []
  | e :: es, S => (e, S.dropWhile fun k => (variantOf (env.enm e) k.name).isNone) ::
      sharesOf env es (S.takeWhile fun k => (variantOf (env.enm e) k.name).isNone)

theorem dropWhile_append_some {α : Type} (p : α → Bool) (l l' : List α) (h : ∃ a ∈ l, p a = false) :
    (l ++ l').dropWhile p = l.dropWhile p ++ l' := by
  induction l with
  | nil => obtain ⟨a, h, -⟩ := h; simp at h
  | cons b l ih =>
    simp only [List.cons_append, List.dropWhile_cons]
    cases hb : p b with
    | false => simp
    | true =>
      simp only [if_true]
      rw [ih]
      obtain ⟨a, h1, h2⟩ := h
      rcases List.mem_cons.mp h1 with rfl | h1
      · simp [hb] at h2
      · exact ⟨a, h1, h2⟩

theorem dropWhile_all {α : Type} (p : α → Bool) (l : List α) : l.dropWhile p = [] ↔ ∀ a ∈ l, p a = true := by
  induction l with
  | nil => simp
  | cons b l ih =>
    simp only [List.dropWhile_cons]
    cases hb : p b with
    | false => simp [hb]
    | true => simp [hb, ih]

theorem offer_shares (env : Env) (k : Kid) (es : List Nat) (S : List Kid) :
    offer env k (sharesOf env es S) = sharesOf env es (S ++ [k]) := by
  induction es generalizing S with
  | nil => rfl
  | cons e es ih =>
    simp only [sharesOf, offer]
    by_cases h : ∃ a ∈ S, (variantOf (env.enm e) a.name).isNone = false
    · have hne : S.dropWhile (fun k => (variantOf (env.enm e) k.name).isNone) ≠ [] := by
        rw [Ne, dropWhile_all]
        intro hall
        obtain ⟨a, h1, h2⟩ := h
        rw [hall a h1] at h2
        simp at h2
      rw [dropWhile_append_some _ _ _ h, takeWhile_append_some _ _ _ h]
      simp [hne]
    · have hall : ∀ a ∈ S, (variantOf (env.enm e) a.name).isNone = true := by
        intro a ha
        cases hh : (variantOf (env.enm e) a.name).isNone with
        | true => rfl
        | false => exact absurd ⟨a, ha, hh⟩ h
      have hd := (dropWhile_all _ S).mpr hall
      have ht : S.takeWhile (fun k => (variantOf (env.enm e) k.name).isNone) = S := by
        have := takeWhile_append_all _ S [] hall
        simpa using this
      have hd' : ∀ l, (S ++ l).dropWhile (fun k => (variantOf (env.enm e) k.name).isNone) =
          l.dropWhile (fun k => (variantOf (env.enm e) k.name).isNone) := by
        intro l
        clear ih h hd ht
        induction S with
        | nil => rfl
        | cons a S ihS =>
          simp only [List.cons_append, List.dropWhile_cons, hall a List.mem_cons_self, if_true]
          exact ihS fun b hb => hall b (List.mem_cons_of_mem _ hb)
      rw [hd, hd', takeWhile_append_all _ _ _ hall, ht]
      cases hv : variantOf (env.enm e) k.name with
      | none => simp [hv, ih]
      | some i => simp [hv]

theorem offerAll_shares (env : Env) (es : List Nat) (S T : List Kid) :
    T.foldl (fun st k => offer env k st) (sharesOf env es S) = sharesOf env es (S ++ T) := by
  induction T generalizing S with
  | nil => simp
  | cons k T ih =>
    simp only [List.foldl_cons]
    rw [offer_shares, ih]
    simp

theorem shares_nil (env : Env) (es : List Nat) : sharesOf env es [] = es.map fun e => (e, []) := by
  induction es with
  | nil => rfl
  | cons e es ih => simp [sharesOf, ih]

theorem shares_get (env : Env) (pre : List Nat) (e : Nat) (post : List Nat) (S : List Kid) :
    (sharesOf env (pre ++ e :: post) S)[pre.length]? =
      some (e, (past env pre S).dropWhile fun k => (variantOf (env.enm e) k.name).isNone) := by
  induction pre generalizing S with
  | nil => rfl
  | cons e' pre ih =>
    simp only [List.cons_append, sharesOf, List.length_cons, List.getElem?_cons_succ]
    exact ih _

theorem choices_dropWhile (d : EnumDef) (ks : List Kid) :
    choices d (ks.dropWhile fun k => (variantOf d k.name).isNone) = choices d ks := by
  induction ks with
  | nil => rfl
  | cons k ks ih =>
    rw [List.dropWhile_cons]
    split
    · rename_i h
      rw [ih, show k :: ks = [k] ++ ks from rfl, choices_append, choices_none d k (by simpa using h)]
      rfl
    · rfl

theorem offerAll_value (env : Env) (fields : List Field) (b : Body) (pre : List Field) (f : Field) (post : List Field) (e : Nat)
    (hf : fields = pre ++ f :: post) (hk : f.kind = .flatten e) :
    ∃ got, (offerAll env fields b.kids)[(flatTypes pre).length]? = some (e, got) ∧
      fieldValue env fields b (flatTypes pre) f = enumValue (env.enm e) got := by
  unfold offerAll
  rw [← shares_nil, offerAll_shares, List.nil_append]
  have hft : flatTypes fields = flatTypes pre ++ e :: flatTypes post := by
    rw [hf, flatTypes_append]
    simp [flatTypes, hk]
  rw [hft, shares_get]
  refine ⟨_, rfl, ?_⟩
  unfold fieldValue
  rw [hk]
  simp only [enumValue, choices_dropWhile]

end SX
