import Verif.Spec.Leaf
import Verif.Proof.LocalRead

namespace SX.Leaf
open SX.Spec LocalRead

theorem place_inj {C : Val → Val} (hC : Place C) {w w' : Val} (h : C w = C w') : w = w' := by
  induction hC with
  | here => exact h
  | field a b _ ih => exact ih (by simpa using h)
  | payload i _ ih => exact ih (by simpa using h)
  | opt _ ih => exact ih (by simpa using h)
  | item a b _ ih => exact ih (by simpa using h)

/-- A text or a struct. -/
def Solid : Val → Prop
  | .text _ => True
  | .strct _ => True
  | _ => False

/-- The value is a text or a struct, and so is the type. -/
def Fits (ty : Ty) (u : Val) : Prop := (∃ t v, ty = .text t ∧ u = .text v) ∨ ∃ i l, ty = .strct i ∧ u = .strct l

theorem filter_lift {α : Type} {p : α → Bool} : ∀ {ks a b : List α} {k : α}, ks.filter p = a ++ k :: b →
    ∃ A B, ks = A ++ k :: B ∧ ∀ k', p k' = true → (A ++ k' :: B).filter p = a ++ k' :: b := by
  intro ks
  induction ks with
  | nil => intro a b k h; simp at h
  | cons x ks ih =>
    intro a b k h
    cases hx : p x with
    | true =>
      rw [List.filter_cons, hx] at h
      cases a with
      | nil =>
        simp only [if_true, List.nil_append, List.cons.injEq] at h
        obtain ⟨rfl, rfl⟩ := h
        exact ⟨[], ks, rfl, fun k' hk => by simp [List.filter_cons, hk]⟩
      | cons y a =>
        simp only [if_true, List.cons_append, List.cons.injEq] at h
        obtain ⟨rfl, h⟩ := h
        obtain ⟨A, B, h1, h2⟩ := ih h
        exact ⟨x :: A, B, by rw [h1]; rfl, fun k' hk => by rw [List.cons_append, List.filter_cons, hx, h2 k' hk]; rfl⟩
    | false =>
      rw [List.filter_cons, hx] at h
      obtain ⟨A, B, h1, h2⟩ := ih h
      exact ⟨x :: A, B, by rw [h1]; rfl, fun k' hk => by rw [List.cons_append, List.filter_cons, hx, h2 k' hk]; rfl⟩

theorem takeWhile_lift {α : Type} {p : α → Bool} : ∀ {ks a b : List α} {k : α}, ks.takeWhile p = a ++ k :: b →
    ∃ A B, ks = A ++ k :: B ∧ p k = true ∧ ∀ k', p k' = true → (A ++ k' :: B).takeWhile p = a ++ k' :: b := by
  intro ks
  induction ks with
  | nil => intro a b k h; simp at h
  | cons x ks ih =>
    intro a b k h
    cases hx : p x with
    | true =>
      rw [List.takeWhile_cons, hx] at h
      cases a with
      | nil =>
        simp only [if_true, List.nil_append, List.cons.injEq] at h
        obtain ⟨rfl, rfl⟩ := h
        exact ⟨[], ks, rfl, hx, fun k' hk => by simp [List.takeWhile_cons, hk]⟩
      | cons y a =>
        simp only [if_true, List.cons_append, List.cons.injEq] at h
        obtain ⟨rfl, h⟩ := h
        obtain ⟨A, B, h1, h3, h2⟩ := ih h
        exact ⟨x :: A, B, by rw [h1]; rfl, h3, fun k' hk => by rw [List.cons_append, List.takeWhile_cons, hx, h2 k' hk]; rfl⟩
    | false =>
      rw [List.takeWhile_cons, hx] at h
      simp at h

theorem past_lift (env : Env) : ∀ (es : List Nat) {ks a b : List Kid} {k : Kid}, past env es ks = a ++ k :: b →
    ∃ A B, ks = A ++ k :: B ∧ ∀ k' : Kid, k'.name = k.name → past env es (A ++ k' :: B) = a ++ k' :: b := by
  intro es
  induction es with
  | nil => intro ks a b k h; exact ⟨a, b, h, fun _ _ => rfl⟩
  | cons e es ih =>
    intro ks a b k h
    obtain ⟨A1, B1, h1, h2⟩ := ih (show past env es (ks.takeWhile _) = _ from h)
    obtain ⟨A, B, h3, h4, h5⟩ := takeWhile_lift h1
    exact ⟨A, B, h3, fun k' hk => by rw [past, h5 k' (by rw [hk]; exact h4), h2 k' hk]⟩

theorem allAs_split (ty : Ty) : ∀ (L : List Kid) (a b : List Val) (w : Val), allAs ty L = some (a ++ w :: b) →
    ∃ x k y, L = x ++ k :: y ∧ k.as ty = some w ∧ allAs ty x = some a ∧ allAs ty y = some b := by
  intro L
  induction L with
  | nil => intro a b w h; simp [allAs] at h
  | cons k L ih =>
    intro a b w h
    simp only [allAs] at h
    cases h1 : k.as ty with
    | none => simp [h1] at h
    | some v =>
      cases h2 : allAs ty L with
      | none => simp [h1, h2] at h
      | some vs =>
        simp only [h1, h2, Option.some.injEq] at h
        cases a with
        | nil =>
          simp only [List.nil_append, List.cons.injEq] at h
          obtain ⟨rfl, rfl⟩ := h
          exact ⟨[], k, L, rfl, h1, rfl, h2⟩
        | cons v' a =>
          simp only [List.cons_append, List.cons.injEq] at h
          obtain ⟨rfl, rfl⟩ := h
          obtain ⟨x, k', y, rfl, h4, h5, h6⟩ := ih a b w h2
          exact ⟨k :: x, k', y, rfl, h4, by simp [allAs, h1, h5], h6⟩

/-- A text or struct in the value of a field that has children is in the value of one of them. -/
theorem slot_leaf {s : Slot} {absent : Option Val} {L : List Kid} {C : Val → Val} {u : Val} (hu : Solid u) (hC : Place C) (hL : L ≠ []) (h : slotValue s absent L = some (C u)) :
    ∃ a k b C1 C2, Place C1 ∧ Place C2 ∧ C = (fun w => C1 (C2 w)) ∧ L = a ++ k :: b ∧ k.as s.ty = some (C2 u) ∧
      ∀ k', slotValue s absent (a ++ k' :: b) = (k'.as s.ty).map C1 := by
  obtain ⟨card, ty⟩ := s
  cases L with
  | nil => exact absurd rfl hL
  | cons k L =>
    cases card with
    | one =>
      simp only [slotValue] at h
      cases L with
      | cons _ _ => simp at h
      | nil => exact ⟨[], k, [], id, C, .here, hC, rfl, rfl, by simpa using h, fun k' => by simp [slotValue]⟩
    | opt =>
      simp only [slotValue] at h
      cases L with
      | cons _ _ => simp at h
      | nil =>
        simp only [List.isEmpty_nil, if_true, Option.map_eq_some_iff] at h
        obtain ⟨w, h1, h2⟩ := h
        cases hC with
        | opt hD =>
          simp only [Val.opt.injEq, Option.some.injEq] at h2
          exact ⟨[], k, [], _, _, .opt .here, hD, rfl, rfl, by rw [h1, h2], fun k' => by simp [slotValue]⟩
        | here => rw [← show Val.opt (some w) = u from h2] at hu; exact hu.elim
        | _ => simp at h2
    | many =>
      simp only [slotValue, Option.map_eq_some_iff] at h
      obtain ⟨vs, h1, h2⟩ := h
      cases hC with
      | item a b hD =>
        simp only [Val.vec.injEq] at h2
        rw [h2] at h1
        obtain ⟨x, k1, y, h3, h4, h5, h6⟩ := allAs_split ty _ _ _ _ h1
        refine ⟨x, k1, y, _, _, .item a b .here, hD, rfl, h3, h4, fun k' => ?_⟩
        have : slotValue ⟨.many, ty⟩ absent (x ++ k' :: y) = (allAs ty (x ++ k' :: y)).map .vec := by cases x <;> rfl
        rw [this, allAs_append, h5]
        simp only [allAs, h6]
        cases k'.as ty <;> simp
      | here => rw [← show Val.vec vs = u from h2] at hu; exact hu.elim
      | _ => simp at h2

theorem choices_snd (d : EnumDef) (ks : List Kid) : (choices d ks).map Prod.snd = ks.filter fun k => (variantOf d k.name).isSome := by
  induction ks with
  | nil => rfl
  | cons k ks ih =>
    rw [choices_cons, List.filter_cons, List.map_append, ih]
    cases variantOf d k.name <;> simp

theorem choices_of (d : EnumDef) (i : Nat) : ∀ (l M : List Kid), l.filter (fun k => (variantOf d k.name).isSome) = M → (∀ m ∈ M, variantOf d m.name = some i) →
    choices d l = M.map fun k => (i, k) := by
  intro l
  induction l with
  | nil => rintro M rfl _; rfl
  | cons k l ih =>
    rintro M rfl hM
    rw [choices_cons]
    cases hv : variantOf d k.name with
    | none =>
      simp only [List.filter_cons, hv, Option.isSome_none] at hM ⊢
      simpa using ih _ rfl hM
    | some j =>
      simp only [List.filter_cons, hv, Option.isSome_some, if_true] at hM ⊢
      have hj : j = i := by
        have := hM k (by simp)
        rw [hv] at this
        simpa using this
      subst hj
      rw [ih _ rfl fun m hm => hM m (List.mem_cons_of_mem _ hm)]
      simp

theorem choices_variant {d : EnumDef} {ks : List Kid} {c : Nat × Kid} (h : c ∈ choices d ks) : variantOf d c.2.name = some c.1 := by
  simp only [choices, List.mem_filterMap, Option.map_eq_some_iff] at h
  obtain ⟨k, _, i, h1, rfl⟩ := h
  exact h1

theorem chosen_map {d : EnumDef} {i : Nat} {v : Variant} {s : Slot} (hv : d.variants[i]? = some v) (hs : v.slot = some s) {M : List Kid} (hM : M ≠ []) :
    chosen d (M.map fun k => (i, k)) = (slotValue s none M).map fun p => .enm i (some p) := by
  cases M with
  | nil => exact absurd rfl hM
  | cons k M =>
    have : (M.map fun k => (i, k)).map Prod.snd = M := by simp [Function.comp_def]
    simp [chosen, hv, hs, this]

theorem enum_leaf {d : EnumDef} {ks : List Kid} {C : Val → Val} {u : Val} (hu : Solid u) (hC : Place C) (h : enumValue d ks = some (C u)) :
    ∃ A k B ty C1 C2, Place C1 ∧ Place C2 ∧ C = (fun w => C1 (C2 w)) ∧ ks = A ++ k :: B ∧ k.as ty = some (C2 u) ∧
      ∀ k' : Kid, k'.name = k.name → enumValue d (A ++ k' :: B) = (k'.as ty).map C1 := by
  rw [enumValue_eq] at h
  cases hch : choices d ks with
  | nil => rw [hch] at h; simp [chosen] at h
  | cons c rest =>
    obtain ⟨i, k0⟩ := c
    rw [hch] at h
    simp only [chosen] at h
    split at h
    · rename_i hall
      split at h
      · cases h
      · rename_i v hv
        split at h
        · rename_i hs
          cases hC with
          | here => rw [← show Val.enm i none = u from Option.some.inj h] at hu; exact hu.elim
          | _ => simp at h
        · rename_i s hs
          simp only [Option.map_eq_some_iff] at h
          obtain ⟨p, h1, h2⟩ := h
          cases hC with
          | payload j hD =>
            simp only [Val.enm.injEq, Option.some.injEq] at h2
            obtain ⟨rfl, rfl⟩ := h2
            obtain ⟨a, k, b, C1, C2, g1, g2, rfl, g4, g5, g6⟩ := slot_leaf hu hD (by simp) h1
            have hM : ks.filter (fun k => (variantOf d k.name).isSome) = a ++ k :: b := by rw [← choices_snd, hch, ← g4]; rfl
            have hvar : ∀ m ∈ a ++ k :: b, variantOf d m.name = some i := by
              intro m hm
              rw [← g4, ← show (choices d ks).map Prod.snd = k0 :: rest.map Prod.snd by rw [hch]; rfl] at hm
              obtain ⟨c, hc, rfl⟩ := List.mem_map.mp hm
              rw [choices_variant hc]
              rw [hch] at hc
              rcases List.mem_cons.mp hc with rfl | hc
              · rfl
              · simpa using List.all_eq_true.mp hall c hc
            obtain ⟨A, B, e1, e2⟩ := filter_lift hM
            refine ⟨A, k, B, s.ty, _, C2, .payload i g1, g2, rfl, e1, g5, fun k' hk => ?_⟩
            have hk' : variantOf d k'.name = some i := by rw [hk]; exact hvar k (by simp)
            rw [enumValue_eq, choices_of d i _ _ (e2 k' (by rw [hk']; rfl)) (by
              intro m hm
              simp only [List.mem_append, List.mem_cons] at hm
              rcases hm with hm | rfl | hm
              · exact hvar m (by simp [hm])
              · exact hk'
              · exact hvar m (by simp [hm])), chosen_map hv hs (by simp), g6]
            simp [Function.comp_def]
          | here => rw [← show Val.enm i (some p) = u from h2] at hu; exact hu.elim
          | _ => simp at h2
    · cases h

/-- There is nothing for the field. -/
def Absent (f : Field) (as : List XAttr) (ks : List Kid) : Prop :=
  match f.kind with
  | .element _ => ∀ k ∈ ks, k.name ≠ f.name.expanded
  | .attribute _ _ => ∀ a ∈ as, a.name.expanded ≠ f.name.expanded
  | _ => False

theorem default_leaf {o absent : Option Val} {C : Val → Val} {u : Val} (hu : Solid u) (hC : Place C) (ha : absent = none ∨ absent = some (.opt none) ∨ absent = some (.vec []))
    (h : o.or absent = some (C u)) : o = some (C u) := by
  cases o with
  | some v => simpa using h
  | none =>
    rcases ha with rfl | rfl | rfl
    · simp at h
    · cases hC with
      | here => rw [← show Val.opt none = u from Option.some.inj h] at hu; exact hu.elim
      | _ => simp at h
    · cases hC with
      | here => rw [← show Val.vec [] = u from Option.some.inj h] at hu; exact hu.elim
      | _ => simp at h

theorem field_leaf {env : Env} {all : List Field} {as : List XAttr} {ks : List Kid} {t : String} {earlier : List Nat} {f : Field} {C : Val → Val} {u : Val} (hu : Solid u) (hC : Place C)
    (h : fieldValue env all ⟨as, ks, t⟩ earlier f = some (C u)) :
    (∃ A k B ty C1 C2, Place C1 ∧ Place C2 ∧ C = (fun w => C1 (C2 w)) ∧ ks = A ++ k :: B ∧ k.as ty = some (C2 u) ∧
      ∀ k' : Kid, k'.name = k.name → fieldValue env all ⟨as, A ++ k' :: B, t⟩ earlier f = (k'.as ty).map C1) ∨
    (∃ a x b o tt, (∃ v, u = .text v) ∧ f.kind = .attribute o tt ∧ as = a ++ x :: b ∧ x.name.expanded = f.name.expanded ∧
      ∀ s, fieldValue env all ⟨a ++ ⟨x.name, s⟩ :: b, ks, t⟩ earlier f = (parsed tt s).map C) ∨
    (f.default = some (C u) ∧ Absent f as ks) := by
  unfold fieldValue at h
  split at h
  · rename_i s hs
    simp only at h
    by_cases hn : named f.name.expanded ks = []
    · rw [hn] at h
      refine .inr (.inr ⟨default_leaf hu hC ?_ (show f.default.or (slotAbsent s) = _ from h), ?_⟩)
      · unfold slotAbsent
        cases s.card <;> simp
      · simp only [Absent, hs]
        intro k hk
        simpa using List.filter_eq_nil_iff.mp hn k hk
    · obtain ⟨a, k, b, C1, C2, g1, g2, g3, g4, g5, g6⟩ := slot_leaf hu hC hn h
      obtain ⟨A, B, e1, e2⟩ := filter_lift (show ks.filter _ = _ from g4)
      have hk : k.name = f.name.expanded := by
        have : k ∈ named f.name.expanded ks := by rw [g4]; simp
        simpa using (List.mem_filter.mp this).2
      refine .inl ⟨A, k, B, s.ty, C1, C2, g1, g2, g3, e1, g5, fun k' hk' => ?_⟩
      simp only [fieldValue, hs, named]
      rw [e2 k' (by simp [hk', hk]), g6]
  · rename_i o tt hk
    simp only at h
    cases hn : attrsNamed f.name.expanded as with
    | nil =>
      rw [hn] at h
      refine .inr (.inr ⟨default_leaf hu hC ?_ (show f.default.or (attrAbsent o) = _ from h), ?_⟩)
      · unfold attrAbsent
        cases o <;> simp
      · simp only [Absent, hk]
        intro a ha
        simpa using List.filter_eq_nil_iff.mp hn a ha
    | cons x l =>
      cases l with
      | cons _ _ => rw [hn] at h; simp [attrValue] at h
      | nil =>
        rw [hn] at h
        obtain ⟨a, b, e1, e2⟩ := filter_lift (a := []) (b := []) (show as.filter _ = _ from hn)
        have hx : x.name.expanded = f.name.expanded := by
          have : x ∈ attrsNamed f.name.expanded as := by rw [hn]; simp
          simpa using (List.mem_filter.mp this).2
        refine .inr (.inl ⟨a, x, b, o, tt, ?_, hk, e1, hx, fun s => ?_⟩)
        · simp only [attrValue] at h
          split at h
          · rename_i v _
            cases o with
            | false =>
              cases hC with
              | here => exact ⟨v, (Option.some.inj h).symm⟩
              | _ => simp at h
            | true =>
              cases hC with
              | opt hD =>
                cases hD with
                | here => exact ⟨v, by simpa [eq_comm] using h⟩
                | _ => simp at h
              | here => simp at h; rw [← h] at hu; exact hu.elim
              | _ => simp at h
          · cases h
        simp only [fieldValue, hk, attrsNamed]
        rw [e2 ⟨x.name, s⟩ (by simp [hx])]
        simp only [List.nil_append, attrValue, parsed] at h ⊢
        cases o with
        | false =>
          have hid : C = id := by
            split at h
            · cases hC with
              | here => rfl
              | _ => simp at h
            · cases h
          subst hid
          cases tt.parse s <;> simp
        | true =>
          have hid : C = fun w => .opt (some w) := by
            split at h
            · cases hC with
              | opt hD =>
                cases hD with
                | here => rfl
                | _ => simp at h
              | here => simp at h; rw [← h] at hu; exact hu.elim
              | _ => simp at h
            · cases h
          subst hid
          cases tt.parse s <;> simp
  · rename_i e he
    simp only at h
    obtain ⟨a, k, b, ty, C1, C2, g1, g2, g3, g4, g5, g6⟩ := enum_leaf hu hC h
    obtain ⟨A1, B1, e1, e2⟩ := past_lift env earlier g4
    obtain ⟨A, B, e3, e4⟩ := filter_lift (show ks.filter _ = _ from e1)
    have hk : declaredElem all k.name = false := by
      have : k ∈ strangers all ks := by rw [e1]; simp
      simpa using (List.mem_filter.mp this).2
    refine .inl ⟨A, k, B, ty, C1, C2, g1, g2, g3, e3, g5, fun k' hk' => ?_⟩
    simp only [fieldValue, he, strangers]
    rw [e4 k' (by simp [hk', hk]), e2 k' hk', g6 k' hk']
  · cases h

theorem fieldsValue_split {env : Env} {all : List Field} {b : Body} : ∀ (fs : List Field) (earlier : List Nat) (x y : List Val) (w : Val), fieldsValue env all b earlier fs = some (x ++ w :: y) →
    ∃ pre f post, fs = pre ++ f :: post ∧ pre.length = x.length ∧ fieldsValue env all b earlier pre = some x ∧ fieldValue env all b (earlier ++ flatTypes pre) f = some w ∧
      fieldsValue env all b (earlier ++ flatTypes pre ++ flatTypes [f]) post = some y := by
  intro fs
  induction fs with
  | nil => intro earlier x y w h; simp [fieldsValue] at h
  | cons f fs ih =>
    intro earlier x y w h
    simp only [fieldsValue] at h
    cases h1 : fieldValue env all b earlier f with
    | none => simp [h1] at h
    | some v =>
      cases h2 : fieldsValue env all b (earlier ++ flatTypes [f]) fs with
      | none => simp [h1, h2] at h
      | some vs =>
        simp only [h1, h2, Option.some.injEq] at h
        cases x with
        | nil =>
          simp only [List.nil_append, List.cons.injEq] at h
          obtain ⟨rfl, rfl⟩ := h
          exact ⟨[], f, fs, rfl, rfl, rfl, by simpa [flatTypes] using h1, by simpa [flatTypes] using h2⟩
        | cons v' x =>
          simp only [List.cons_append, List.cons.injEq] at h
          obtain ⟨rfl, rfl⟩ := h
          obtain ⟨pre, g, post, rfl, g1, g2, g3, g4⟩ := ih _ _ _ _ h2
          refine ⟨f :: pre, g, post, rfl, by simp [g1], by simp [fieldsValue, h1, g2], ?_, ?_⟩
          · rw [flatTypes_cons, ← List.append_assoc]; exact g3
          · rw [flatTypes_cons f pre, ← List.append_assoc]; exact g4

theorem fieldsValue_join {env : Env} {all : List Field} {b : Body} (f : Field) (post : List Field) (y : List Val) : ∀ (pre : List Field) (earlier : List Nat) (x : List Val),
    fieldsValue env all b earlier pre = some x → fieldsValue env all b (earlier ++ flatTypes pre ++ flatTypes [f]) post = some y →
    fieldsValue env all b earlier (pre ++ f :: post) = (fieldValue env all b (earlier ++ flatTypes pre) f).map fun w => x ++ w :: y := by
  intro pre
  induction pre with
  | nil =>
    intro earlier x h1 h2
    simp only [fieldsValue, Option.some.injEq] at h1
    subst h1
    have h3 : flatTypes [] = [] := rfl
    rw [h3, List.append_nil] at h2 ⊢
    simp only [List.nil_append, fieldsValue, h2]
    cases fieldValue env all b earlier f <;> rfl
  | cons g pre ih =>
    intro earlier x h1 h2
    simp only [fieldsValue] at h1
    cases h3 : fieldValue env all b earlier g with
    | none => simp [h3] at h1
    | some v =>
      cases h4 : fieldsValue env all b (earlier ++ flatTypes [g]) pre with
      | none => simp [h3, h4] at h1
      | some vs =>
        simp only [h3, h4, Option.some.injEq] at h1
        subst h1
        rw [flatTypes_cons g pre, ← List.append_assoc] at h2 ⊢
        simp only [List.cons_append, fieldsValue, h3, ih _ _ h4 h2]
        cases fieldValue env all b (earlier ++ flatTypes [g] ++ flatTypes pre) f <;> rfl

theorem fieldsValue_get {env : Env} {all : List Field} {b : Body} (f : Field) (post : List Field) : ∀ (pre : List Field) (earlier : List Nat) (l : List Val),
    fieldsValue env all b earlier (pre ++ f :: post) = some l → l[pre.length]? = fieldValue env all b (earlier ++ flatTypes pre) f := by
  intro pre
  induction pre with
  | nil =>
    intro earlier l h
    have h3 : flatTypes [] = [] := rfl
    rw [h3, List.append_nil]
    simp only [List.nil_append, fieldsValue] at h
    cases h1 : fieldValue env all b earlier f with
    | none => simp [h1] at h
    | some v =>
      cases h2 : fieldsValue env all b (earlier ++ flatTypes [f]) post with
      | none => simp [h1, h2] at h
      | some vs =>
        simp only [h1, h2, Option.some.injEq] at h
        subst h
        rfl
  | cons g pre ih =>
    intro earlier l h
    simp only [List.cons_append, fieldsValue] at h
    cases h1 : fieldValue env all b earlier g with
    | none => simp [h1] at h
    | some v =>
      cases h2 : fieldsValue env all b (earlier ++ flatTypes [g]) (pre ++ f :: post) with
      | none => simp [h1, h2] at h
      | some vs =>
        simp only [h1, h2, Option.some.injEq] at h
        subst h
        rw [flatTypes_cons g pre, ← List.append_assoc, ← ih _ _ h2]
        rfl

theorem fieldsValue_length {env : Env} {all : List Field} {b : Body} (fs : List Field) : ∀ (earlier : List Nat) (l : List Val), fieldsValue env all b earlier fs = some l → l.length = fs.length := by
  induction fs with
  | nil => intro earlier l h; simp only [fieldsValue, Option.some.injEq] at h; rw [← h]; rfl
  | cons g fs ih =>
    intro earlier l h
    simp only [fieldsValue] at h
    split at h
    · rename_i v vs _ hvs
      simp only [Option.some.injEq] at h
      rw [← h]
      simp [ih _ _ hvs]
    · cases h

theorem fieldsValue_attr {env : Env} {all : List Field} {a b : List XAttr} {q : QName} {ks : List Kid} {t : String} (s s' : String) (fs : List Field) (earlier : List Nat)
    (h : ∀ g ∈ fs, ∀ o tt, g.kind = .attribute o tt → g.name.expanded ≠ q.expanded) :
    fieldsValue env all ⟨a ++ ⟨q, s⟩ :: b, ks, t⟩ earlier fs = fieldsValue env all ⟨a ++ ⟨q, s'⟩ :: b, ks, t⟩ earlier fs := by
  induction fs generalizing earlier with
  | nil => rfl
  | cons g fs ih =>
    have h1 : fieldValue env all ⟨a ++ ⟨q, s⟩ :: b, ks, t⟩ earlier g = fieldValue env all ⟨a ++ ⟨q, s'⟩ :: b, ks, t⟩ earlier g := by
      unfold fieldValue
      split
      · rfl
      · rename_i o tt hk
        have := h g (by simp) o tt hk
        have hne : (q.expanded == g.name.expanded) = false := beq_eq_false_iff_ne.mpr fun h => this h.symm
        have e : ∀ s, attrsNamed g.name.expanded (a ++ ⟨q, s⟩ :: b) = attrsNamed g.name.expanded (a ++ b) := fun s => by
          simp only [attrsNamed, List.filter_append, List.filter_cons, hne]
          rfl
        simp only [e]
      · rfl
      · rfl
    rw [fieldsValue, fieldsValue, h1, ih _ fun g hg => h g (by simp [hg])]

/-- A text or struct in a value: that of the element, that of an attribute, in a child, or from a default. -/
theorem body_leaf {env : Env} (hok : EnvOk env) {as : List XAttr} {ks : List Kid} {t : String} {ty : Ty} {C : Val → Val} {u : Val} (hu : Solid u) (hC : Place C)
    (h : bodyValue env ⟨as, ks, t⟩ ty = some (C u)) :
    (C = id ∧ Fits ty u) ∨
    (∃ A k B ty' C1 C2, Place C1 ∧ Place C2 ∧ C = (fun w => C1 (C2 w)) ∧ ks = A ++ k :: B ∧ k.as ty' = some (C2 u) ∧
      ∀ k' : Kid, k'.name = k.name → bodyValue env ⟨as, A ++ k' :: B, t⟩ ty = (k'.as ty').map C1) ∨
    (∃ a x b tt, (∃ v, u = .text v) ∧ as = a ++ x :: b ∧ ∀ s, bodyValue env ⟨a ++ ⟨x.name, s⟩ :: b, ks, t⟩ ty = (parsed tt s).map C) ∨
    (∃ i f x y D, ty = .strct i ∧ (env.strct i).fields[x.length]? = some f ∧ Place D ∧ C = (fun w => .strct (x ++ D w :: y)) ∧ f.default = some (D u) ∧ Absent f as ks) := by
  cases ty with
  | text tt =>
    refine .inl ?_
    simp only [bodyValue] at h
    split at h
    · split at h
      · rename_i v _
        cases hC with
        | here => exact ⟨rfl, .inl ⟨tt, v, rfl, (Option.some.inj h).symm⟩⟩
        | _ => simp at h
      · cases h
    · cases h
  | enm i =>
    obtain ⟨A, k, B, ty', C1, C2, g⟩ := enum_leaf hu hC h
    exact .inr (.inl ⟨A, k, B, ty', C1, C2, g⟩)
  | strct i =>
    have h0 := h
    simp only [bodyValue, structValue, Option.map_eq_some_iff] at h
    obtain ⟨vs, h1, h2⟩ := h
    cases hC with
    | @field x y D hD =>
      simp only [Val.strct.injEq] at h2
      subst h2
      obtain ⟨pre, f, post, e1, e2, e3, e4, e5⟩ := fieldsValue_split _ _ _ _ _ h1
      rcases field_leaf hu hD e4 with ⟨A, k, B, ty', C1, C2, g1, g2, rfl, g4, g5, g6⟩ | ⟨a, z, b, o, tt, g0, g1, g2, g3, g4⟩ | ⟨g1, g2⟩
      · refine .inr (.inl ⟨A, k, B, ty', _, C2, .field x y g1, g2, rfl, g4, g5, fun k' hk' => ?_⟩)
        subst g4
        -- what the field gets
        have get : ∀ (k' : Kid) (l : List Val), k'.name = k.name → bodyValue env ⟨as, A ++ k' :: B, t⟩ (.strct i) = some (.strct l) → l[pre.length]? = (k'.as ty').map C1 := by
          intro k' l hk' hl
          simp only [bodyValue, structValue, Option.map_eq_some_iff, Val.strct.injEq] at hl
          obtain ⟨l', hl, rfl⟩ := hl
          rw [e1] at hl
          have := fieldsValue_get f post pre [] _ hl
          rw [this]
          have e6 := g6 k' hk'
          rw [e1] at e6
          exact e6
        have some_of : ∀ k' : Kid, k'.name = k.name → k'.as ty' = none → bodyValue env ⟨as, A ++ k' :: B, t⟩ (.strct i) = none := by
          intro k' hk' hn
          cases hb : bodyValue env ⟨as, A ++ k' :: B, t⟩ (.strct i) with
          | none => rfl
          | some v =>
            have hb' := hb
            simp only [bodyValue, structValue, Option.map_eq_some_iff] at hb'
            obtain ⟨l, hl, rfl⟩ := hb'
            have := get k' l hk' hb
            rw [hn, Option.map_none] at this
            rw [e1] at hl
            have h4 : l.length = (pre ++ f :: post).length := fieldsValue_length _ _ _ hl
            have h5 := List.getElem?_eq_none_iff.mp this
            simp only [List.length_append, List.length_cons] at h4
            omega
        rcases body_local env hok (n := k.name) as A B t (.strct i) with ⟨r, hr⟩ | ⟨ty2, C', hC', hr⟩
        · have r1 := hr k rfl
          have r2 := hr { k with as := fun _ => none } rfl
          simp only at r1 r2
          rw [some_of { k with as := fun _ => none } rfl rfl] at r2
          rw [h0, ← r2] at r1
          cases r1
        · simp only at hr
          have hty : ty2 = ty' := by
            apply Classical.byContradiction
            intro hne
            let k2 : Kid := { k with as := fun t => open Classical in if t = ty' then none else some (.opt none) }
            have r1 := hr k2 rfl
            rw [some_of k2 rfl (by simp [k2])] at r1
            simp [k2, hne] at r1
          subst hty
          have at_w : ∀ w, ∃ l, C' w = .strct l ∧ l[pre.length]? = some (C1 w) := by
            intro w
            have r1 := hr { k with as := fun _ => some w } rfl
            simp only [Option.map_some] at r1
            have r2 := r1
            simp only [bodyValue, structValue, Option.map_eq_some_iff] at r2
            obtain ⟨l, -, r2⟩ := r2
            exact ⟨l, r2.symm, by simpa using get { k with as := fun _ => some w } l rfl (by rw [r1, r2])⟩
          rw [hr k' hk']
          congr 1
          cases hC' with
          | @field a2 b2 D2 hD2 =>
            have hp : pre.length = a2.length := by
              apply Classical.byContradiction
              intro hne
              have hc : ∀ w, (a2 ++ D2 w :: b2)[pre.length]? = some (C1 w) := by
                intro w
                obtain ⟨l, l1, l2⟩ := at_w w
                simp only [Val.strct.injEq] at l1
                rw [l1]; exact l2
              have hsame : ∀ w w', (a2 ++ D2 w :: b2)[pre.length]? = (a2 ++ D2 w' :: b2)[pre.length]? := by
                intro w w'
                rw [List.getElem?_append, List.getElem?_append]
                split
                · rfl
                · rename_i hlt
                  obtain ⟨m, hm⟩ : ∃ m, pre.length - a2.length = m + 1 := ⟨pre.length - a2.length - 1, by omega⟩
                  rw [hm]
                  rfl
              have := hsame (.opt none) (.vec [])
              rw [hc, hc] at this
              have := place_inj g1 (Option.some.inj this)
              cases this
            have hD : ∀ w, D2 w = C1 w := by
              intro w
              obtain ⟨l, l1, l2⟩ := at_w w
              simp only [Val.strct.injEq] at l1
              rw [← l1, hp] at l2
              simpa using l2
            have r1 := hr k rfl
            rw [h0, g5] at r1
            simp only [Option.map_some, Option.some.injEq, Val.strct.injEq] at r1
            obtain ⟨r2, r3⟩ := List.append_inj r1 (by rw [← e2, hp])
            simp only [List.cons.injEq] at r3
            rw [r2, r3.2]
            funext w
            rw [hD]
          | here =>
            obtain ⟨l, l1, -⟩ := at_w (.opt none)
            cases l1
          | payload j _ => obtain ⟨l, l1, -⟩ := at_w (.opt none); cases l1
          | opt _ => obtain ⟨l, l1, -⟩ := at_w (.opt none); cases l1
          | item _ _ _ => obtain ⟨l, l1, -⟩ := at_w (.opt none); cases l1
      · refine .inr (.inr (.inl ⟨a, z, b, tt, g0, g2, fun s => ?_⟩))
        subst g2
        have other : ∀ g, (∃ j, j ≠ pre.length ∧ (env.strct i).fields[j]? = some g) → ∀ o' t', g.kind = .attribute o' t' → g.name.expanded ≠ z.name.expanded := by
          rintro g ⟨j, hj, hg⟩ o' t' hk he
          exact hj (hok.attrs i j pre.length g f o' t' o tt hg (by rw [e1]; simp) hk g1 (by rw [he, g3]))
        have hz : a ++ z :: b = a ++ ⟨z.name, z.value⟩ :: b := rfl
        rw [hz] at e3 e5
        rw [fieldsValue_attr z.value s] at e3 e5
        · simp only [bodyValue, structValue]
          conv => lhs; rw [e1]
          rw [fieldsValue_join f post y pre [] x (by rw [e1] at e3; exact e3) (by rw [e1] at e5; exact e5)]
          have := g4 s
          rw [e1] at this
          rw [this]
          cases parsed tt s <;> simp
        · intro g hg
          obtain ⟨j, hj, rfl⟩ := List.mem_iff_getElem.mp hg
          refine other _ ⟨pre.length + 1 + j, by omega, ?_⟩
          rw [e1, List.getElem?_append_right (by omega)]
          simp [show pre.length + 1 + j - pre.length = j + 1 by omega, hj]
        · intro g hg
          obtain ⟨j, hj, rfl⟩ := List.mem_iff_getElem.mp hg
          refine other _ ⟨j, by omega, ?_⟩
          rw [e1, List.getElem?_append_left hj]
          simp [hj]
      · exact .inr (.inr (.inr ⟨i, f, x, y, D, rfl, by rw [e1, ← e2]; simp, hD, rfl, g1, g2⟩))
    | here => exact .inl ⟨rfl, .inr ⟨i, vs, rfl, h2.symm⟩⟩
    | _ => simp at h2

theorem kids_at (env : Env) (f : Forest) : ∀ (A B : List Kid) (k : Kid), kids env f = A ++ k :: B →
    ∃ c y, Around c ∧ f = c y ∧ k = kidOf env y ∧ (∀ z, kids env (c z) = A ++ kidOf env z :: B) ∧ (∀ z, (c z).text = f.text) ∧ sizeOf y.children < sizeOf f := by
  induction f with
  | nil => intro A B k h; simp [kids] at h
  | elem n as ns p ch ep rest _ ih =>
    intro A B k h
    simp only [kids] at h
    cases A with
    | nil =>
      simp only [List.nil_append, List.cons.injEq] at h
      obtain ⟨rfl, rfl⟩ := h
      exact ⟨_, ⟨n, as, ns, p, ch, ep⟩, .here rest, rfl, rfl, fun z => rfl, fun z => rfl, by simp only [Forest.elem.sizeOf_spec]; omega⟩
    | cons k0 A =>
      simp only [List.cons_append, List.cons.injEq] at h
      obtain ⟨rfl, h⟩ := h
      obtain ⟨c, y, h1, h2, h3, h4, h5, h6⟩ := ih A B k h
      exact ⟨_, y, .elem n as ns p ch ep h1, by rw [← h2], h3, fun z => by simp only [kids, h4]; rfl, fun z => by simp only [Forest.text, h5], by simp only [Forest.elem.sizeOf_spec]; omega⟩
  | chars s cd p rest ih =>
    intro A B k h
    obtain ⟨c, y, h1, h2, h3, h4, h5, h6⟩ := ih A B k h
    exact ⟨_, y, .chars s cd p h1, by rw [← h2], h3, fun z => by simp only [kids, h4], fun z => by simp only [Forest.text, h5], by simp only [Forest.chars.sizeOf_spec]; omega⟩
  | misc m p rest ih =>
    intro A B k h
    obtain ⟨c, y, h1, h2, h3, h4, h5, h6⟩ := ih A B k h
    exact ⟨_, y, .misc m p h1, by rw [← h2], h3, fun z => by simp only [kids, h4], fun z => by simp only [Forest.text, h5], by simp only [Forest.misc.sizeOf_spec]; omega⟩

theorem around_comp {c c2 : Elem → Forest} (h : Around c) (h2 : Around c2) (y : Elem) : Around fun z => c { y with children := c2 z } := by
  induction h with
  | here rest => exact .inside _ _ _ _ _ _ h2
  | inside n as ns p ep rest _ ih => exact .inside _ _ _ _ _ _ ih
  | elem n as ns p ch ep _ ih => exact .elem _ _ _ _ _ _ ih
  | chars s cd p _ ih => exact .chars _ _ _ ih
  | misc m p _ ih => exact .misc _ _ ih

theorem kids_names (env : Env) (f : Forest) : (kids env f).map Kid.name = f.names := by
  induction f with
  | nil => rfl
  | elem n as ns p ch ep rest _ ih => simp only [kids, Forest.names, List.map_cons, ih]; rfl
  | chars s cd p rest ih => exact ih
  | misc m p rest ih => exact ih

theorem nothing_for {env : Env} {f : Field} {x : Elem} (h : Absent f x.attrs (kids env x.children)) : NothingFor f x := by
  unfold Absent at h
  unfold NothingFor
  cases hk : f.kind with
  | element s =>
    simp only [hk] at h ⊢
    rw [← kids_names env]
    intro hm
    obtain ⟨k, hk, he⟩ := List.mem_map.mp hm
    exact h k hk he
  | «attribute» o t => simpa only [hk] using h
  | flatten e => simp [hk] at h
  | text t => simp [hk] at h

/-- Where a text or struct in the value of an element comes from. -/
inductive From (env : Env) (ty : Ty) (C : Val → Val) (u : Val) (G : Elem → Elem) (y : Elem) : Prop where
  | own (ty' : Ty) (fits : Fits ty' u) (h : ∀ z : Elem, z.name.expanded = y.name.expanded → bodyValue env ((G z).body env) ty = (bodyValue env (z.body env) ty').map C)
  | «attribute» (a b : List XAttr) (x : XAttr) (t : TextTy) (isText : ∃ v, u = .text v) (has : y.attrs = a ++ x :: b)
      (h : ∀ s, bodyValue env ((G { y with attrs := a ++ ⟨x.name, s⟩ :: b }).body env) ty = (parsed t s).map C)
  | default (i : Nat) (f : Field) (C0 D : Val → Val) (l m : List Val) (mem : (env.strct i).fields[l.length]? = some f) (h0 : Place C0) (hD : Place D)
      (hC : C = fun w => C0 (.strct (l ++ D w :: m))) (hd : f.default = some (D u)) (nothing : NothingFor f y)
      (h : ∀ z : Elem, z.name.expanded = y.name.expanded → bodyValue env ((G z).body env) ty = (bodyValue env (z.body env) (.strct i)).map C0)

theorem origin (env : Env) (hok : EnvOk env) : ∀ (n : Nat) (x : Elem), sizeOf x.children ≤ n → ∀ (ty : Ty) (C : Val → Val) (u : Val), Solid u → Place C → bodyValue env (x.body env) ty = some (C u) →
    ∃ G y, Opened x G ∧ x = G y ∧ From env ty C u G y := by
  intro n
  induction n with
  | zero =>
    intro x hx
    cases hc : x.children <;> rw [hc] at hx <;> simp at hx <;> omega
  | succ n ih =>
    intro x hx ty C u hu hC h
    rcases body_leaf hok hu hC (show bodyValue env ⟨x.attrs, kids env x.children, x.children.text⟩ ty = _ from h) with
      ⟨rfl, hf⟩ | ⟨A, k, B, ty', C1, C2, g1, g2, rfl, g4, g5, g6⟩ | ⟨a, z, b, t, g0, g1, g2⟩ | ⟨i, f, l, m, D, rfl, g2, g3, g4, g5, g6⟩
    · exact ⟨_, x, .root, rfl, .own ty hf fun z _ => by simp⟩
    · obtain ⟨c, y, c1, c2, rfl, c4, c5, c6⟩ := kids_at env x.children A B k g4
      have hstep : ∀ z : Elem, z.name.expanded = y.name.expanded → bodyValue env (({ x with children := c z } : Elem).body env) ty = (bodyValue env (z.body env) ty').map C1 := by
        intro z hz
        have := g6 (kidOf env z) hz
        rw [← c4 z, ← c5 z] at this
        exact this
      obtain ⟨G, y', o1, o2, o3⟩ := ih y (by omega) ty' C2 u hu g2 g5
      -- the names on the way stay
      have hname : ∀ z : Elem, z.name.expanded = y'.name.expanded → (G z).name.expanded = y.name.expanded := by
        intro z hz
        cases o1 with
        | root => rw [hz, o2]
        | inside _ => rfl
      have hx' : x = { x with children := c (G y') } := by rw [← o2, ← c2]
      have hop : Opened x fun z => { x with children := c (G z) } := by
        cases o1 with
        | root => exact .inside c1
        | inside hc2 => exact .inside (around_comp c1 hc2 y)
      refine ⟨_, y', hop, hx', ?_⟩
      cases o3 with
      | own ty2 hf h =>
        refine .own ty2 hf fun z hz => ?_
        rw [hstep _ (hname z hz), h z hz]
        simp [Function.comp_def]
      | «attribute» a b q t ht has h =>
        refine .attribute a b q t ht has fun s => ?_
        rw [hstep (G { y' with attrs := a ++ ⟨q.name, s⟩ :: b }) (hname { y' with attrs := a ++ ⟨q.name, s⟩ :: b } rfl), h s]
        simp [Function.comp_def]
      | default i f C0 D l m mem p1 p2 hC hd hno h =>
        refine .default i f _ D l m mem (place_comp g1 p1) p2 (by rw [hC]) hd hno fun z hz => ?_
        rw [hstep _ (hname z hz), h z hz]
        simp [Function.comp_def]
    · exact ⟨_, x, .root, rfl, .attribute a b z t g0 g1 fun s => g2 s⟩
    · exact ⟨_, x, .root, rfl, .default i f id D l m g2 .here g3 g4 g5 (nothing_for g6) fun z _ => by simp⟩

end SX.Leaf
