import Verif.Proof.LocalRead
import Verif.Proof.DeriveSerTotal
import Verif.Props.Local

namespace SX.LocalCopy
open SX.Spec SX.Spec.Open SX.Open SX.LocalRead

theorem edit_trans {q q' p p' r r' : Prog [.writer false]} (h : Edit q q' p p') (h2 : Edit p p' r r') : Edit q q' r r' := by
  induction h with
  | here => exact h2
  | field _ ih => exact .field (ih h2)
  | flatten _ ih => exact .flatten (ih h2)
  | payload _ ih => exact .payload (ih h2)
  | one ha _ ih => exact .one ha (ih h2)
  | opt _ ih => exact .opt (ih h2)
  | items _ ih => exact .items (ih h2)
  | item _ ih => exact .item (ih h2)

/-- In the value of a slot, a value of the type `ty` is at the place `C`, and is written as an element of the name `n`. -/
def SlotAt (env : Env) (n : EName) (s : Slot) (ty : Ty) (C : Val → Val) : Prop :=
  Place C ∧ ∀ w w', Edit (slotSer env s (C w) n) (slotSer env s (C w') n) (fieldOne (serOf env ty w) n) (fieldOne (serOf env ty w') n)

/-- The same for a value of a type. -/
def TyAt (env : Env) (n : EName) (outer ty : Ty) (C : Val → Val) : Prop :=
  Place C ∧ ∀ w w', (serOf env outer (C w)).attrs = (serOf env outer (C w')).attrs ∧
    Edit (serOf env outer (C w)).children (serOf env outer (C w')).children (fieldOne (serOf env ty w) n) (fieldOne (serOf env ty w') n)

/-- The same for all children of the name `n`, or the child's value as some type at a place. -/
def LocalBy (n : EName) (P : Ty → (Val → Val) → Prop) (F : Kid → Option Val) : Prop := Const n F ∨ ∃ ty C, P ty C ∧ ∀ k, k.name = n → F k = (k.as ty).map C

theorem LocalBy.congr {n : EName} {P : Ty → (Val → Val) → Prop} {F G : Kid → Option Val} (h : LocalBy n P F) (hg : ∀ k, k.name = n → G k = F k) : LocalBy n P G := by
  rcases h with ⟨r, h⟩ | ⟨ty, C, hC, h⟩
  · exact .inl ⟨r, fun k hk => (hg k hk).trans (h k hk)⟩
  · exact .inr ⟨ty, C, hC, fun k hk => (hg k hk).trans (h k hk)⟩

theorem vec_copy (env : Env) (n : EName) (ty : Ty) (a b : List Kid) : LocalBy n (SlotAt env n ⟨.many, ty⟩) fun k => (allAs ty (a ++ k :: b)).map .vec := by
  cases ha : allAs ty a with
  | none => exact .inl ⟨none, fun k _ => by simp [allAs_append, ha]⟩
  | some x =>
    cases hb : allAs ty b with
    | none =>
      refine .inl ⟨none, fun k _ => ?_⟩
      (try dsimp only); rw [allAs_append, ha]
      simp only [allAs, hb]
      cases k.as ty <;> simp
    | some y =>
      refine .inr ⟨ty, _, ⟨.item x y .here, fun w w' => ?_⟩, fun k _ => ?_⟩
      · have := Edit.items (a := x.map (serOf env ty)) (b := y.map (serOf env ty)) (.item (name := n) (v := serOf env ty w) (v' := serOf env ty w') .here)
        simpa [slotSer] using this
      · (try dsimp only); rw [allAs_append, ha]
        simp only [allAs, hb]
        cases k.as ty <;> simp

theorem slot_copy (env : Env) {n : EName} {G : Kid → List Kid} (h : LocalRead.Split n G) (s : Slot) (absent : Option Val) : LocalBy n (SlotAt env n s) fun k => slotValue s absent (G k) := by
  rcases h with h | ⟨a, b, h⟩
  · exact .inl (h.comp _)
  · obtain ⟨card, ty⟩ := s
    cases card with
    | one =>
      by_cases hab : a = [] ∧ b = []
      · obtain ⟨rfl, rfl⟩ := hab
        exact .inr ⟨ty, id, ⟨.here, fun w w' => .here⟩, fun k hk => by (try dsimp only); rw [h k hk]; simp [slotValue]⟩
      · refine .inl ⟨none, fun k hk => ?_⟩
        (try dsimp only); rw [h k hk]
        cases a with
        | nil => cases b with | nil => simp at hab | cons y b => simp [slotValue]
        | cons x a => simp [slotValue]
    | opt =>
      by_cases hab : a = [] ∧ b = []
      · obtain ⟨rfl, rfl⟩ := hab
        exact .inr ⟨ty, _, ⟨.opt .here, fun w w' => .opt .here⟩, fun k hk => by (try dsimp only); rw [h k hk]; simp [slotValue]⟩
      · refine .inl ⟨none, fun k hk => ?_⟩
        (try dsimp only); rw [h k hk]
        cases a with
        | nil => cases b with | nil => simp at hab | cons y b => simp [slotValue]
        | cons x a => simp [slotValue]
    | many =>
      refine (vec_copy env n ty a b).congr fun k hk => ?_
      (try dsimp only); rw [h k hk]
      cases a with
      | nil => rfl
      | cons x a => rfl

theorem variantOf_spec {d : EnumDef} {n : EName} {j : Nat} (h : variantOf d n = some j) : ∃ v, d.variants[j]? = some v ∧ v.skip = false ∧ v.name.expanded = n := by
  obtain ⟨h1, h2, -⟩ := List.findIdx?_eq_some_iff_getElem.mp h
  refine ⟨_, List.getElem?_eq_getElem h1, ?_⟩
  simpa using h2

theorem enum_copy (env : Env) (e : Nat) {n : EName} {G : Kid → List Kid} (h : LocalRead.Split n G) : LocalBy n (TyAt env n (.enm e)) fun k => enumValue (env.enm e) (G k) := by
  cases hv : variantOf (env.enm e) n with
  | none => exact .inl (enum_const hv h)
  | some j =>
    rcases h with h | ⟨a, b, h⟩
    · exact .inl (h.comp _)
    · have h2 : ∀ k, k.name = n → enumValue (env.enm e) (G k) = chosen (env.enm e) (choices (env.enm e) a ++ (j, k) :: choices (env.enm e) b) := fun k hk => by
        (try dsimp only); rw [h k hk, enumValue_eq, choices_append, choices_cons, hk, hv]; rfl
      refine LocalBy.congr ?_ h2
      generalize choices (env.enm e) a = x
      generalize choices (env.enm e) b = y
      have key : ∀ (G : Kid → List Kid), LocalRead.Split n G →
          LocalBy n (TyAt env n (.enm e)) fun k => match (env.enm e).variants[j]? with
            | none => none
            | some v => match v.slot with
              | none => some (.enm j none)
              | some s => (slotValue s none (G k)).map fun p => .enm j (some p) := by
        intro G hG
        obtain ⟨v, h1, h3, h4⟩ := variantOf_spec hv
        simp only [h1]
        cases hs : v.slot with
        | none => exact .inl ⟨some (.enm j none), fun _ _ => rfl⟩
        | some s =>
          rcases slot_copy env hG s none with h5 | ⟨ty, C, ⟨hC, h6⟩, h5⟩
          · exact .inl (h5.comp _)
          · refine .inr ⟨ty, fun w => .enm j (some (C w)), ⟨.payload j hC, fun w w' => ?_⟩, fun k hk => ?_⟩
            · exact C99_payload env e j v s (C w) (C w') h1 h3 hs _ _ (by rw [h4]; exact h6 w w')
            · simp only [h5 k hk]; simp [Function.comp_def]
      cases x with
      | nil =>
        simp only [List.nil_append, chosen]
        split
        · exact key _ (.inr ⟨[], y.map Prod.snd, fun k _ => rfl⟩)
        · exact .inl ⟨none, fun _ _ => rfl⟩
      | cons c x =>
        obtain ⟨i, c⟩ := c
        simp only [List.cons_append, chosen, List.all_append, List.all_cons]
        split
        · rename_i hall
          have : j = i := by simp at hall; exact hall.2.1
          subst this
          exact key _ (.inr ⟨c :: x.map Prod.snd, y.map Prod.snd, fun k _ => by simp⟩)
        · exact .inl ⟨none, fun _ _ => rfl⟩

/-- In the value of a field. -/
def FieldAt (env : Env) (n : EName) (f : Field) (ty : Ty) (C : Val → Val) : Prop :=
  (∃ s, f.kind = .element s ∧ f.name.expanded = n ∧ SlotAt env n s ty C) ∨ ∃ e, f.kind = .flatten e ∧ TyAt env n (.enm e) ty C

theorem field_copy (env : Env) (all : List Field) (earlier : List Nat) {n : EName} (f : Field) {G : Kid → List Kid} (h : LocalRead.Split n G) (as : List XAttr) (t : String) :
    LocalBy n (FieldAt env n f) fun k => fieldValue env all ⟨as, G k, t⟩ earlier f := by
  by_cases hc : ∃ s, f.kind = .element s ∧ f.name.expanded ≠ n
  · obtain ⟨s, hs, hn⟩ := hc
    exact .inl (field_const (by simp only [Unconcerned, hs]; exact hn) h as t)
  · unfold fieldValue
    split
    · rename_i s hs
      have hn : f.name.expanded = n := Classical.byContradiction fun hn => hc ⟨s, hs, hn⟩
      rcases slot_copy env (filter_split h (p := fun k => k.name == f.name.expanded) fun k k' hk => by simp only [hk]) s (f.default.or (slotAbsent s)) with h1 | ⟨ty, C, hC, h1⟩
      · exact .inl h1
      · exact .inr ⟨ty, C, .inl ⟨s, hs, hn, hC⟩, h1⟩
    · rename_i o u _; exact .inl ⟨attrValue o u (f.default.or (attrAbsent o)) (attrsNamed f.name.expanded as), fun _ _ => rfl⟩
    · rename_i e he
      rcases enum_copy env e (past_split env earlier (filter_split h (p := fun k => !declaredElem all k.name) fun k k' hk => by simp only [hk])) with h1 | ⟨ty, C, hC, h1⟩
      · exact .inl h1
      · exact .inr ⟨ty, C, .inr ⟨e, he, hC⟩, h1⟩
    · exact .inl ⟨none, fun _ _ => rfl⟩

theorem fieldsValue_length {env : Env} {all : List Field} {b : Body} {earlier : List Nat} {fs : List Field} {vs : List Val} (h : fieldsValue env all b earlier fs = some vs) :
    vs.length = fs.length := by
  induction fs generalizing earlier vs with
  | nil => simp [fieldsValue] at h; subst h; rfl
  | cons f fs ih =>
    simp only [fieldsValue] at h
    split at h
    · rename_i v l h1 h2
      simp only [Option.some.injEq] at h
      subst h
      simp [ih h2]
    · cases h

/-- In the values of the fields of a struct. -/
def FieldsAt (env : Env) (n : EName) (fs : List Field) (ty : Ty) (C : Val → Val) (a b : List Val) : Prop :=
  a.length + b.length + 1 = fs.length ∧ ∃ f, fs[a.length]? = some f ∧ FieldAt env n f ty C

theorem fields_copy (env : Env) (all : List Field) {n : EName} (hex : ∃ k : Kid, k.name = n) (fs : List Field) (hall : ∀ f ∈ fs, f ∈ all) (hone : OneOf n fs) (earlier : List Nat)
    {G : Kid → List Kid} (h : LocalRead.Split n G) (as : List XAttr) (t : String) : (Const n fun k => fieldsValue env all ⟨as, G k, t⟩ earlier fs) ∨
    ∃ ty C a b, FieldsAt env n fs ty C a b ∧ ∀ k, k.name = n → fieldsValue env all ⟨as, G k, t⟩ earlier fs = (k.as ty).map fun w => a ++ C w :: b := by
  induction fs generalizing earlier with
  | nil => exact .inl ⟨some [], fun _ _ => rfl⟩
  | cons f fs ih =>
    have hp := List.pairwise_cons.mp hone
    have hcase : (Const n fun k => fieldValue env all ⟨as, G k, t⟩ earlier f) ∨ Const n fun k => fieldsValue env all ⟨as, G k, t⟩ (earlier ++ flatTypes [f]) fs := by
      rcases unconcerned_or env all earlier n f with hu | ⟨s, hs, hn⟩ | ⟨e, he, hd, hv⟩
      · exact .inl (field_const hu h as t)
      · refine .inr (fields_const fs _ (fun pre g post hg => ?_) h as t)
        have hgm : g ∈ fs := by rw [hg]; simp
        rcases unconcerned_or env all (earlier ++ flatTypes [f] ++ flatTypes pre) n g with hu | ⟨s', hs', hn'⟩ | ⟨e, he, hd, hv⟩
        · exact hu
        · exact absurd ⟨⟨s, hs⟩, hn, ⟨s', hs'⟩, hn'⟩ (hp.1 g hgm)
        · rw [← hn, declared_of_mem (hall f (by simp)) hs] at hd
          simp at hd
      · refine .inr (fields_const fs _ (fun pre g post hg => ?_) h as t)
        have hgm : g ∈ fs := by rw [hg]; simp
        rcases unconcerned_or env all (earlier ++ flatTypes [f] ++ flatTypes pre) n g with hu | ⟨s', hs', hn'⟩ | ⟨e', he', hd', hv'⟩
        · exact hu
        · rw [← hn', declared_of_mem (hall g (by simp [hgm])) hs'] at hd
          simp at hd
        · simp only [Unconcerned, he']
          exact .inr (.inl ⟨e, by simp [flatTypes, he], hv⟩)
    rcases hcase with ⟨r, h1⟩ | ⟨r, h1⟩
    · rcases ih (fun g hg => hall g (by simp [hg])) hp.2 (earlier ++ flatTypes [f]) with ⟨r', h2⟩ | ⟨ty, C, a, b, ⟨hl, g, hg, hC⟩, h2⟩
      · exact .inl ⟨(r.bind fun v => r'.map (v :: ·)), fun k hk => by
          have e1 := h1 k hk
          have e2 := h2 k hk
          simp only at e1 e2
          simp only [fieldsValue, e1, e2]
          cases r <;> cases r' <;> rfl⟩
      · cases r with
        | none => exact .inl ⟨none, fun k hk => by
            have e1 := h1 k hk
            simp only at e1
            simp only [fieldsValue, e1]⟩
        | some v => exact .inr ⟨ty, C, v :: a, b, ⟨by simp only [List.length_cons]; omega, g, by simpa using hg, hC⟩, fun k hk => by
            have e1 := h1 k hk
            simp only at e1
            simp only [fieldsValue, e1, h2 k hk]
            cases k.as ty <;> rfl⟩
    · rcases field_copy env all earlier f h as t with ⟨r', h2⟩ | ⟨ty, C, hC, h2⟩
      · exact .inl ⟨(r'.bind fun v => r.map (v :: ·)), fun k hk => by
          have e1 := h1 k hk
          have e2 := h2 k hk
          simp only at e1 e2
          simp only [fieldsValue, e1, e2]
          cases r <;> cases r' <;> rfl⟩
      · cases r with
        | none => exact .inl ⟨none, fun k hk => by
            have e1 := h1 k hk
            simp only at e1
            simp only [fieldsValue, e1]
            split
            · rename_i hh; cases hh
            · rfl⟩
        | some vs =>
          obtain ⟨k, hk⟩ := hex
          have hl := fieldsValue_length (h1 k hk)
          exact .inr ⟨ty, C, [], vs, ⟨by simp only [List.length_nil, List.length_cons]; omega, f, rfl, hC⟩, fun k hk => by
            have e1 := h1 k hk
            have e2 := h2 k hk
            simp only at e1 e2
            simp only [fieldsValue, e1, e2]
            cases k.as ty <;> rfl⟩

theorem set_mid (a b : List Val) (v v' : Val) : (a ++ v :: b).set a.length v' = a ++ v' :: b := by simp

theorem struct_copy {env : Env} {n : EName} {i : Nat} {ty : Ty} {C : Val → Val} {a b : List Val} (h : FieldsAt env n (env.strct i).fields ty C a b) :
    TyAt env n (.strct i) ty fun w => .strct (a ++ C w :: b) := by
  obtain ⟨hl, f, hf, hC⟩ := h
  have hlen : ∀ w, (a ++ C w :: b).length = (env.strct i).fields.length := fun w => by simp only [List.length_append, List.length_cons]; omega
  have hget : ∀ w, (a ++ C w :: b)[a.length]? = some (C w) := fun w => by simp
  rcases hC with ⟨s, hk, hn, hP, hC⟩ | ⟨e, hk, hP, hC⟩
  · refine ⟨.field a b hP, fun w w' => ?_⟩
    have := C99_field env i (a ++ C w :: b) (hlen w) a.length f s (C w) (C w') hf hk (hget w) _ _ (by rw [hn]; exact hC w w')
    rwa [set_mid] at this
  · refine ⟨.field a b hP, fun w w' => ?_⟩
    have := C99_flatten env i (a ++ C w :: b) (hlen w) a.length f e (C w) (C w') hf hk (hget w) _ _ (hC w w').2
    rwa [set_mid] at this

theorem body_copy (env : Env) (hok : EnvOk env) {n : EName} (as : List XAttr) (a b : List Kid) (t : String) (ty : Ty) :
    LocalBy n (TyAt env n ty) fun k => bodyValue env ⟨as, a ++ k :: b, t⟩ ty := by
  cases ty with
  | text u =>
    refine .inl ⟨none, fun k _ => ?_⟩
    cases a <;> rfl
  | strct i =>
    by_cases hex : ∃ k : Kid, k.name = n
    · simp only [bodyValue, structValue]
      rcases fields_copy env (env.strct i).fields hex (env.strct i).fields (fun _ h => h) (oneOf env hok i n) [] (G := fun k => a ++ k :: b) (.inr ⟨a, b, fun _ _ => rfl⟩) as t
        with h | ⟨ty, C, x, y, hC, h⟩
      · exact .inl (h.comp _)
      · exact .inr ⟨ty, _, struct_copy hC, fun k hk => by dsimp only; rw [h k hk]; simp [Function.comp_def]⟩
    · exact .inl ⟨none, fun k hk => absurd ⟨k, hk⟩ hex⟩
  | enm i => exact enum_copy env i (.inr ⟨a, b, fun _ _ => rfl⟩)

/-- What is read from something that contains an element `x` of the name `n`: the same whatever is in `x`, or what `x` is as some type, at a place. -/
def CopiesBy (env : Env) (n : EName) (P : Ty → (Val → Val) → Prop) (value : Elem → Option Val) : Prop :=
  (∃ r, ∀ x : Elem, x.name.expanded = n → value x = r) ∨
  ∃ ty C, P ty C ∧ ∀ x : Elem, x.name.expanded = n → value x = (bodyValue env (x.body env) ty).map C

/-- In the value of an element of the name `m`. -/
def ElemAt (env : Env) (m n : EName) (outer ty : Ty) (C : Val → Val) : Prop :=
  Place C ∧ ∀ w w', Edit (fieldOne (serOf env outer (C w)) m) (fieldOne (serOf env outer (C w')) m) (fieldOne (serOf env ty w) n) (fieldOne (serOf env ty w') n)

theorem tyAt_comp {env : Env} {m n : EName} {t1 t2 t3 : Ty} {C D : Val → Val} (h1 : TyAt env m t1 t2 C) (h2 : ElemAt env m n t2 t3 D) : TyAt env n t1 t3 fun w => C (D w) :=
  ⟨place_comp h1.1 h2.1, fun w w' => ⟨(h1.2 (D w) (D w')).1, edit_trans (h1.2 (D w) (D w')).2 (h2.2 w w')⟩⟩

theorem within (env : Env) (hok : EnvOk env) {n m : EName} {as : List XAttr} {a b : List Kid} {t : String} {K : Elem → Kid} (hK : ∀ x, x.name.expanded = n → (K x).name = m)
    (h : ∀ ty, CopiesBy env n (ElemAt env m n ty) fun x => (K x).as ty) (ty : Ty) :
    CopiesBy env n (TyAt env n ty) fun x => bodyValue env ⟨as, a ++ K x :: b, t⟩ ty := by
  rcases body_copy env hok (n := m) as a b t ty with ⟨r, h4⟩ | ⟨ty', C, hC, h4⟩
  · exact .inl ⟨r, fun x hx => h4 (K x) (hK x hx)⟩
  · rcases h ty' with ⟨r, h5⟩ | ⟨ty'', D, hD, h5⟩
    · refine .inl ⟨r.map C, fun x hx => (h4 (K x) (hK x hx)).trans ?_⟩
      have := h5 x hx
      simp only at this
      rw [this]
    · refine .inr ⟨ty'', _, tyAt_comp hC hD, fun x hx => (h4 (K x) (hK x hx)).trans ?_⟩
      have := h5 x hx
      simp only at this
      rw [this]
      simp [Function.comp_def]

theorem around_kids (env : Env) (hok : EnvOk env) (n : EName) {c : Elem → Forest} (h : Around c) :
    ∃ (a b : List Kid) (K : Elem → Kid) (m : EName) (t : String), (∀ x, x.name.expanded = n → kids env (c x) = a ++ K x :: b ∧ (K x).name = m ∧ (c x).text = t) ∧
      ∀ ty, CopiesBy env n (ElemAt env m n ty) fun x => (K x).as ty := by
  induction h with
  | here rest =>
    exact ⟨[], kids env rest, kidOf env, n, rest.text, fun x hx => ⟨rfl, hx, rfl⟩, fun ty => .inr ⟨ty, id, ⟨.here, fun _ _ => .here⟩, fun x _ => by simp [kidOf]⟩⟩
  | @inside name attrs ns pos endPos rest c _ ih =>
    obtain ⟨a, b, K, m, t, h1, h2⟩ := ih
    refine ⟨[], kids env rest, fun x => kidOf env ⟨name, attrs, ns, pos, c x, endPos⟩, name.expanded, rest.text, fun x hx => ⟨rfl, rfl, rfl⟩, fun ty => ?_⟩
    have h3 : ∀ x, x.name.expanded = n → (kidOf env ⟨name, attrs, ns, pos, c x, endPos⟩).as ty = bodyValue env ⟨attrs, a ++ K x :: b, t⟩ ty := fun x hx => by
      obtain ⟨g1, g2, g3⟩ := h1 x hx
      simp only [kidOf, Elem.body, g1, g3]
    rcases within env hok (as := attrs) (a := a) (b := b) (t := t) (fun x hx => (h1 x hx).2.1) h2 ty with ⟨r, h4⟩ | ⟨ty', C, ⟨hP, hC⟩, h4⟩
    · exact .inl ⟨r, fun x hx => (h3 x hx).trans (h4 x hx)⟩
    · exact .inr ⟨ty', C, ⟨hP, fun w w' => .one (hC w w').1 (hC w w').2⟩, fun x hx => (h3 x hx).trans (h4 x hx)⟩
  | @elem name attrs ns pos children endPos c _ ih =>
    obtain ⟨a, b, K, m, t, h1, h2⟩ := ih
    refine ⟨kidOf env ⟨name, attrs, ns, pos, children, endPos⟩ :: a, b, K, m, t, fun x hx => ?_, h2⟩
    obtain ⟨g1, g2, g3⟩ := h1 x hx
    exact ⟨by simp only [kids, g1]; rfl, g2, g3⟩
  | @chars s cdata pos c _ ih =>
    obtain ⟨a, b, K, m, t, h1, h2⟩ := ih
    refine ⟨a, b, K, m, s ++ t, fun x hx => ?_, h2⟩
    obtain ⟨g1, g2, g3⟩ := h1 x hx
    exact ⟨g1, g2, by simp only [Forest.text, g3]⟩
  | @misc mi pos c _ ih =>
    obtain ⟨a, b, K, m, t, h1, h2⟩ := ih
    refine ⟨a, b, K, m, t, fun x hx => ?_, h2⟩
    obtain ⟨g1, g2, g3⟩ := h1 x hx
    exact ⟨g1, g2, g3⟩

theorem around_copy (env : Env) (hok : EnvOk env) (n : EName) {c : Elem → Forest} (h : Around c) (root : Elem) (ty : Ty) :
    CopiesBy env n (TyAt env n ty) fun x => bodyValue env (Elem.body env { root with children := c x }) ty := by
  obtain ⟨a, b, K, m, t, h1, h2⟩ := around_kids env hok n h
  have h3 : ∀ x, x.name.expanded = n → bodyValue env (Elem.body env { root with children := c x }) ty = bodyValue env ⟨root.attrs, a ++ K x :: b, t⟩ ty := fun x hx => by
    obtain ⟨g1, g2, g3⟩ := h1 x hx
    simp only [Elem.body, g1, g3]
  rcases within env hok (as := root.attrs) (a := a) (b := b) (t := t) (fun x hx => (h1 x hx).2.1) h2 ty with ⟨r, h4⟩ | ⟨ty', C, hC, h4⟩
  · exact .inl ⟨r, fun x hx => (h3 x hx).trans (h4 x hx)⟩
  · exact .inr ⟨ty', C, hC, fun x hx => (h3 x hx).trans (h4 x hx)⟩

/-! ### Written values leak nothing -/

theorem unit_noForget {o : Bool} {hs : List Handle} (name : EName) (k : WCont o hs) (hk : ∀ r, NoForget (k r)) : NoForget (writeUnit name k) := ⟨hk, fun _ => hk _⟩

theorem elem_noForget {o : Bool} {hs : List Handle} (name : EName) (attrs : AttrProg) (children : WCont true (.writer o :: hs) → Prog (.writer true :: .writer o :: hs))
    (hc : ∀ k : WCont true (.writer o :: hs), (∀ r, NoForget (k r)) → NoForget (children k)) (k : WCont o hs) (hk : ∀ r, NoForget (k r)) :
    NoForget (writeElem name attrs children k) := by
  refine noForget_embed _ _ ?_
  intro r
  cases r with
  | error e => exact hk _
  | ok u =>
    refine ⟨hc _ ?_, fun e => hk _⟩
    intro r
    cases r with
    | error e => exact hk _
    | ok u => exact hk

mutual
theorem children_noForget (env : Env) {o : Bool} {hs : List Handle} (ty : Ty) (v : Val) (k : WCont o hs) (hk : ∀ r, NoForget (k r)) : NoForget (writeChildren env ty v k) := by
  match ty, v with
  | .text t, .text tv =>
    rw [writeChildren.eq_def]
    simp only
    split
    · exact hk
    · exact hk _
  | .strct i, .strct vs =>
    rw [writeChildren.eq_def]
    simp only
    refine elemFields_noForget env _ vs _ fun r => ?_
    cases r with
    | error e => exact hk _
    | ok u => exact flattens_noForget env _ vs k hk
  | .enm i, .enm j p =>
    rw [writeChildren.eq_def]
    simp only
    split
    · exact hk _
    · split
      · exact hk _
      · match p with
        | none =>
          split
          · exact unit_noForget _ k hk
          · rename_i h; cases h
          · exact hk _
        | some p =>
          split
          · rename_i h; cases h
          · rename_i h; cases h; exact field_noForget env _ _ p k hk
          · exact hk _
  | .text _, .strct _ | .text _, .enm _ _ | .text _, .opt _ | .text _, .vec _ | .strct _, .text _ | .strct _, .enm _ _ | .strct _, .opt _ | .strct _, .vec _ | .enm _, .text _
  | .enm _, .strct _ | .enm _, .opt _ | .enm _, .vec _ => rw [writeChildren.eq_def]; exact hk _
termination_by 2 * sizeOf v
decreasing_by all_goals (simp_wf <;> (try simp only [wfParam]) <;> omega)

theorem field_noForget (env : Env) {o : Bool} {hs : List Handle} (s : Slot) (name : EName) (v : Val) (k : WCont o hs) (hk : ∀ r, NoForget (k r)) : NoForget (writeField env s name v k) := by
  obtain ⟨card, ty⟩ := s
  cases card with
  | one => 
    rw [writeField.eq_def]
    exact elem_noForget _ _ _ (fun k hk => children_noForget env ty v k hk) k hk
  | opt =>
    match v with
    | .opt (some w) =>
      rw [writeField.eq_def]
      exact elem_noForget _ _ _ (fun k hk => children_noForget env ty w k hk) k hk
    | .opt none | .text _ | .strct _ | .enm _ _ | .vec _ => rw [writeField.eq_def]; exact hk _
  | many =>
    match v with
    | .vec l =>
      rw [writeField.eq_def]
      exact vec_noForget env ty name l k hk
    | .opt _ | .text _ | .strct _ | .enm _ _ => rw [writeField.eq_def]; exact hk _
termination_by 2 * sizeOf v + 1
decreasing_by all_goals (simp_wf <;> (try simp only [wfParam]) <;> omega)

theorem vec_noForget (env : Env) {o : Bool} {hs : List Handle} (ty : Ty) (name : EName) (l : List Val) (k : WCont o hs) (hk : ∀ r, NoForget (k r)) : NoForget (writeVec env ty name l k) := by
  match l with
  | [] => rw [writeVec.eq_def]; exact hk _
  | v :: l =>
    rw [writeVec.eq_def]
    refine elem_noForget _ _ _ (fun k hk => children_noForget env ty v k hk) _ fun r => ?_
    cases r with
    | error e => exact hk _
    | ok u => exact vec_noForget env ty name l k hk
termination_by 2 * sizeOf l
decreasing_by all_goals (simp_wf <;> (try simp only [wfParam]) <;> omega)

theorem elemFields_noForget (env : Env) {o : Bool} {hs : List Handle} (fs : List Field) (vs : List Val) (k : WCont o hs) (hk : ∀ r, NoForget (k r)) :
    NoForget (writeElemFields env fs vs k) := by
  match fs, vs with
  | f :: fs, v :: vs =>
    rw [writeElemFields.eq_def]
    simp only
    split
    · refine field_noForget env _ _ v _ fun r => ?_
      cases r with
      | error e => exact hk _
      | ok u => exact elemFields_noForget env fs vs k hk
    · exact elemFields_noForget env fs vs k hk
  | [], _ => rw [writeElemFields.eq_def]; exact hk _
  | _ :: _, [] => rw [writeElemFields.eq_def]; exact hk _
termination_by 2 * sizeOf vs
decreasing_by all_goals (simp_wf <;> (try simp only [wfParam]) <;> omega)

theorem flattens_noForget (env : Env) {o : Bool} {hs : List Handle} (fs : List Field) (vs : List Val) (k : WCont o hs) (hk : ∀ r, NoForget (k r)) :
    NoForget (writeFlattens env fs vs k) := by
  match fs, vs with
  | f :: fs, v :: vs =>
    rw [writeFlattens.eq_def]
    simp only
    split
    · refine children_noForget env _ v _ fun r => ?_
      cases r with
      | error e => exact hk _
      | ok u => exact flattens_noForget env fs vs k hk
    · exact flattens_noForget env fs vs k hk
  | [], _ => rw [writeFlattens.eq_def]; exact hk _
  | _ :: _, [] => rw [writeFlattens.eq_def]; exact hk _
termination_by 2 * sizeOf vs
decreasing_by all_goals (simp_wf <;> (try simp only [wfParam]) <;> omega)
end

end SX.LocalCopy
