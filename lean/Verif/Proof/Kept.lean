import Verif.Spec.Kept
import Verif.Proof.Reorder
import Verif.Proof.DerivePrune

/-
Two elements have the same value exactly if they are alike.
-/
namespace SX
open Spec

theorem withName_named (env : Env) (n : EName) (l : List Elem) : named n (l.map (Elem.kid env)) = (withName n l).map (Elem.kid env) := by
  simp only [named, withName, List.filter_map]
  rfl

theorem known_none (env : Env) (hok : EnvOk env) (e : Nat) (n : EName) :
    (variantOf (env.enm e) n).isNone = (env.enm e).variants.all fun w => w.name.expanded != n := by
  rw [Bool.eq_iff_iff, Option.isNone_iff_eq_none, List.all_eq_true]
  constructor
  · intro h w hw
    obtain ⟨j, hj⟩ := List.getElem?_of_mem hw
    by_cases hn : w.name.expanded = n
    · rw [(variantOf_iff env hok e n j).mpr ⟨w, hj, hn⟩] at h
      cases h
    · simpa using hn
  · intro h
    cases hv : variantOf (env.enm e) n with
    | none => rfl
    | some j =>
      obtain ⟨w, h1, -, h2⟩ := variantOf_some hv
      have := h w (List.mem_of_getElem? h1)
      simp [h2] at this

theorem past_left (env : Env) (hok : EnvOk env) (es : List Nat) (l : List Elem) : past env es (l.map (Elem.kid env)) = (leftBy env es l).map (Elem.kid env) := by
  induction es generalizing l with
  | nil => rfl
  | cons e es ih =>
    simp only [past, leftBy]
    rw [← ih, List.takeWhile_map]
    congr 2
    refine congrArg (fun p => List.takeWhile p l) (funext fun c => ?_)
    exact known_none env hok e _

theorem strangers_notFields (env : Env) (fields : List Field) (x : Elem) :
    strangers fields (kids env x.children) = (notFields fields x).map (Elem.kid env) := by
  rw [kids_children, strangers, notFields, List.filter_map]
  rfl

theorem enum_choice (env : Env) (hok : EnvOk env) (e : Nat) (l : List Elem) (v : Val) :
    enumValue (env.enm e) (l.map (Elem.kid env)) = some v ↔ ∃ (j : Nat) (w : Variant), (env.enm e).variants[j]? = some w ∧ OneChoice (env.enm e) w l ∧
      match w.slot with
      | none => v = .enm j none
      | some s => ∃ p, slotValue s none ((withName w.name.expanded l).map (Elem.kid env)) = some p ∧ v = .enm j (some p) := by
  rw [enumValue_iff env hok]
  refine exists_congr fun j => exists_congr fun w => and_congr_right fun hw => ?_
  have hne : ∀ n, named n (l.map (Elem.kid env)) ≠ [] ↔ ∃ c ∈ l, c.name.expanded = n := by
    intro n
    rw [withName_named]
    simp [withName, List.filter_eq_nil_iff]
  rw [withName_named, ← and_assoc]
  refine and_congr ?_ Iff.rfl
  rw [← withName_named, hne]
  constructor
  · rintro ⟨h1, h2⟩
    exact ⟨List.mem_of_getElem? hw, h1, fun c hc w' hw' hn => h2 w' hw' ((hne _).mpr ⟨c, hc, hn⟩)⟩
  · rintro ⟨-, h1, h2⟩
    refine ⟨h1, fun w' hw' hn => ?_⟩
    obtain ⟨c, hc, hn⟩ := (hne _).mp hn
    exact h2 c hc w' hw' hn

theorem oneChoice_unique {env : Env} (hok : EnvOk env) {e : Nat} {w w' : Variant} {l : List Elem} (h : OneChoice (env.enm e) w l) (h' : OneChoice (env.enm e) w' l) : w = w' := by
  obtain ⟨h1, ⟨c, hc, hn⟩, h2⟩ := h
  obtain ⟨h1', -, h2'⟩ := h'
  have := h2' c hc w h1 hn
  obtain ⟨i, hi⟩ := List.getElem?_of_mem h1
  obtain ⟨j, hj⟩ := List.getElem?_of_mem h1'
  have hij := hok.variants e i j w w' hi hj this
  subst hij
  rw [hi] at hj
  exact Option.some.inj hj

/-- The values of children, one by one. -/
theorem allAs_rows {env : Env} {ty : Ty} {l : List Elem} {vs : List Val} :
    allAs ty (l.map (Elem.kid env)) = some vs ↔ Rowwise (fun u v => bodyValue env (u.body env) ty = some v) l vs := by
  induction l generalizing vs with
  | nil =>
    simp only [List.map_nil, allAs]
    constructor
    · intro h
      cases h
      exact .nil
    · intro h
      cases h
      rfl
  | cons u l ih =>
    simp only [List.map_cons, allAs]
    constructor
    · intro h
      split at h
      · rename_i v vs' h1 h2
        cases h
        exact .cons h1 (ih.mp h2)
      · cases h
    · intro h
      cases h with
      | cons h1 h2 =>
        have h1' : (Elem.kid env u).as ty = _ := h1
        rw [h1', ih.mpr h2]

/-- As many children with the same values. -/
theorem slot_rows {env : Env} {s : Slot} {l l' : List Elem} {v : Val} (hl : l ≠ []) (hl' : l' ≠ [])
    (h : slotValue s none (l.map (Elem.kid env)) = some v) (h' : slotValue s none (l'.map (Elem.kid env)) = some v) :
    Rowwise (fun u u' => ∃ v, bodyValue env (u.body env) s.ty = some v ∧ bodyValue env (u'.body env) s.ty = some v) l l' := by
  cases l with
  | nil => exact absurd rfl hl
  | cons u l =>
    cases l' with
    | nil => exact absurd rfl hl'
    | cons u' l' =>
      simp only [List.map_cons, slotValue] at h h'
      cases hc : s.card with
      | one =>
        rw [hc] at h h'
        dsimp only at h h'
        split at h
        · rename_i he
          split at h'
          · rename_i he'
            cases l with
            | cons _ _ => simp at he
            | nil =>
              cases l' with
              | cons _ _ => simp at he'
              | nil => exact .cons ⟨v, h, h'⟩ .nil
          · cases h'
        · cases h
      | opt =>
        rw [hc] at h h'
        dsimp only at h h'
        split at h
        · rename_i he
          split at h'
          · rename_i he'
            cases l with
            | cons _ _ => simp at he
            | nil =>
              cases l' with
              | cons _ _ => simp at he'
              | nil =>
                obtain ⟨w, h1, rfl⟩ := Option.map_eq_some_iff.mp h
                obtain ⟨w', h1', h2⟩ := Option.map_eq_some_iff.mp h'
                cases h2
                exact .cons ⟨w, h1, h1'⟩ .nil
          · cases h'
        · cases h
      | many =>
        rw [hc] at h h'
        dsimp only at h h'
        obtain ⟨ws, h1, rfl⟩ := Option.map_eq_some_iff.mp h
        obtain ⟨ws', h1', h2⟩ := Option.map_eq_some_iff.mp h'
        cases h2
        have h3 := allAs_rows.mp (show allAs s.ty ((u :: l).map (Elem.kid env)) = some ws from h1)
        have h4 := allAs_rows.mp (show allAs s.ty ((u' :: l').map (Elem.kid env)) = some ws from h1')
        clear h h' h1 h1' hl hl'
        generalize u :: l = xs at h3
        generalize u' :: l' = ys at h4
        induction h3 generalizing ys with
        | nil => cases h4; exact .nil
        | cons ha _ ih =>
          cases h4 with
          | cons hb hr => exact .cons ⟨_, ha, hb⟩ (ih _ hr)

theorem rows_length {α β : Type} {R : α → β → Prop} {l : List α} {l' : List β} (h : Rowwise R l l') : l.length = l'.length := by
  induction h with
  | nil => rfl
  | cons _ _ ih => simp [ih]

theorem rows_get {α β : Type} {R : α → β → Prop} {l : List α} {l' : List β} (h : Rowwise R l l') : ∀ (p : Nat) u v, l[p]? = some u → l'[p]? = some v → R u v := by
  induction h with
  | nil => intro p u v hu; cases hu
  | cons h _ ih =>
    intro p u v hu hv
    cases p with
    | zero => cases hu; cases hv; exact h
    | succ p => exact ih p u v hu hv

/-- What is alike has the same value. -/
theorem alike_value (env : Env) (hok : EnvOk env) {ty : Ty} {x y : Elem} (h : Alike env ty x y) : bodyValue env (x.body env) ty = bodyValue env (y.body env) ty := by
  have henum : ∀ (e : Nat) (w : Variant) (l l' : List Elem), OneChoice (env.enm e) w l → OneChoice (env.enm e) w l' →
      (∀ s, w.slot = some s → (withName w.name.expanded l).length = (withName w.name.expanded l').length) →
      (∀ s (p : Nat) u v, w.slot = some s → (withName w.name.expanded l)[p]? = some u → (withName w.name.expanded l')[p]? = some v →
        bodyValue env (u.body env) s.ty = bodyValue env (v.body env) s.ty) →
      enumValue (env.enm e) (l.map (Elem.kid env)) = enumValue (env.enm e) (l'.map (Elem.kid env)) := by
    intro e w l l' h1 h2 h3 h4
    have hrow : ∀ s, w.slot = some s → ∀ a, slotValue s a ((withName w.name.expanded l).map (Elem.kid env)) = slotValue s a ((withName w.name.expanded l').map (Elem.kid env)) := by
      intro s hs a
      refine slotValue_as ?_
      rw [List.map_map, List.map_map]
      exact map_eq_of_pointwise (h3 s hs) (fun p u v hu hv => h4 s p u v hs hu hv)
    apply Option.ext
    intro v
    rw [enum_choice env hok, enum_choice env hok]
    constructor
    · rintro ⟨j, w', hj, hc, hv⟩
      obtain rfl := oneChoice_unique hok h1 hc
      refine ⟨j, w, hj, h2, ?_⟩
      split at hv
      · exact hv
      · rename_i s hs
        rw [← hrow s hs]
        exact hv
    · rintro ⟨j, w', hj, hc, hv⟩
      obtain rfl := oneChoice_unique hok h2 hc
      refine ⟨j, w, hj, h1, ?_⟩
      split at hv
      · exact hv
      · rename_i s hs
        rw [hrow s hs]
        exact hv
  have hdef : ∀ (f : Field) (s : Slot) (x y : Elem), Defaulted env f s x y →
      slotValue s (f.default.or (slotAbsent s)) (named f.name.expanded (kids env x.children)) =
        slotValue s (f.default.or (slotAbsent s)) (named f.name.expanded (kids env y.children)) := by
    rintro f s x y ⟨h1, h2, d, h3, h4⟩
    rw [named_children, h1, slotValue_absent s _ (named f.name.expanded (kids env y.children)) (by rw [named_children]; simpa using h2), h4, h3]
    rfl
  have hattr : ∀ (o : Bool) (t : TextTy) (df : Option Val) (l l' : List XAttr), AttrDefaulted o t df l l' →
      attrValue o t (df.or (attrAbsent o)) l = attrValue o t (df.or (attrAbsent o)) l' := by
    rintro o t df l l' ⟨rfl, a, v, rfl, h1, rfl⟩
    simp only [attrValue, h1, Option.some_or]
  induction h with
  | text hx hy h h' => simp only [bodyValue, Elem.body, kids_children, hx, hy, List.map_nil, h, h']
  | @enm i x y w hx hy counts items ih =>
    simp only [bodyValue, Elem.body, kids_children]
    exact henum i w _ _ hx hy counts ih
  | @strct i x y attrs counts items flat flatCounts flatItems ih ihf =>
    simp only [bodyValue, structValue]
    rw [fieldsValue_congr env _ (x.body env) (y.body env) []]
    intro pre f post hf
    have hm : f ∈ (env.strct i).fields := by rw [hf]; simp
    simp only [List.nil_append, fieldValue]
    split
    · rename_i s hk
      by_cases hl : (x.children.childrenNamed f.name.expanded).length = (y.children.childrenNamed f.name.expanded).length
      · exact slotValue_as (named_map_as env hl fun p u v => ih f s p u v hm hk hl)
      · rcases counts f s hm hk with h | h | h
        · exact absurd h hl
        · exact hdef f s x y h
        · exact (hdef f s y x h).symm
    · rename_i o t hk
      rcases attrs f o t hm hk with ⟨h1, h2⟩ | ⟨a, b, v, h1, h2, h3, h4⟩ | h | h
      · simp only [Elem.body, h1, h2]
      · simp only [Elem.body, h1, h2, attrValue, h3, h4]
      · exact hattr o t f.default _ _ h
      · exact (hattr o t f.default _ _ h).symm
    · rename_i e hk
      simp only [Elem.body, strangers_notFields, past_left env hok]
      obtain ⟨w, h1, h2⟩ := flat pre f post e hf hk
      exact henum e w _ _ h1 h2 (fun s => flatCounts pre f post e w s hf hk h1) (fun s p u v hs => ihf pre f post e w s p u v hf hk h1 hs)
    · rfl

theorem withName_ne {d : EnumDef} {w : Variant} {l : List Elem} (h : OneChoice d w l) : withName w.name.expanded l ≠ [] := by
  obtain ⟨-, ⟨c, hc, hn⟩, -⟩ := h
  intro he
  rw [withName, List.filter_eq_nil_iff] at he
  exact he c hc (by simpa using hn)

/-- Two choices with the same value. -/
theorem enum_same (env : Env) (hok : EnvOk env) (e : Nat) {l l' : List Elem} {v : Val} (h : enumValue (env.enm e) (l.map (Elem.kid env)) = some v)
    (h' : enumValue (env.enm e) (l'.map (Elem.kid env)) = some v) :
    ∃ w, OneChoice (env.enm e) w l ∧ OneChoice (env.enm e) w l' ∧ ∀ s, w.slot = some s →
      Rowwise (fun u u' => ∃ v, bodyValue env (u.body env) s.ty = some v ∧ bodyValue env (u'.body env) s.ty = some v)
        (withName w.name.expanded l) (withName w.name.expanded l') := by
  obtain ⟨j, w, hj, hc, hv⟩ := (enum_choice env hok e l v).mp h
  obtain ⟨j', w', hj', hc', hv'⟩ := (enum_choice env hok e l' v).mp h'
  have hjj : j = j' := by
    split at hv
    · split at hv'
      · rw [hv] at hv'; cases hv'; rfl
      · obtain ⟨p, -, h2⟩ := hv'
        rw [hv] at h2; cases h2
    · obtain ⟨p, -, h2⟩ := hv
      split at hv'
      · rw [h2] at hv'; cases hv'
      · obtain ⟨p', -, h2'⟩ := hv'
        rw [h2] at h2'; cases h2'; rfl
  subst hjj
  rw [hj] at hj'
  cases hj'
  refine ⟨w, hc, hc', fun s hs => ?_⟩
  rw [hs] at hv hv'
  obtain ⟨p, h1, rfl⟩ := hv
  obtain ⟨p', h1', h2⟩ := hv'
  cases h2
  exact slot_rows (withName_ne hc) (withName_ne hc') h1 h1'

theorem attr_same {o : Bool} {t : TextTy} {df : Option Val} {l l' : List XAttr} {v : Val} (h : attrValue o t (df.or (attrAbsent o)) l = some v)
    (h' : attrValue o t (df.or (attrAbsent o)) l' = some v) : LikeAttrs o t df l l' := by
  have hone : ∀ l : List XAttr, l ≠ [] → attrValue o t (df.or (attrAbsent o)) l = some v →
      ∃ a u, l = [a] ∧ t.parse a.value = .ok u ∧ v = (if o then .opt (some (.text u)) else .text u) := by
    intro l hl h
    match l with
    | [] => exact absurd rfl hl
    | [a] =>
      simp only [attrValue] at h
      split at h
      · rename_i u hu
        cases h
        exact ⟨a, u, rfl, hu, rfl⟩
      · cases h
    | _ :: _ :: _ => cases h
  have hdf : ∀ u, attrValue o t (df.or (attrAbsent o)) [] = some v → v = (if o then .opt (some (.text u)) else .text u) → df = some v := by
    intro u h hv
    cases df with
    | some d => exact h
    | none =>
      exfalso
      subst hv
      cases o with
      | false => cases h
      | true => cases h
  by_cases hl : l = []
  · by_cases hl' : l' = []
    · exact .inl ⟨hl, hl'⟩
    · obtain ⟨a, u, h1, h2, h3⟩ := hone l' hl' h'
      rw [hl] at h
      exact .inr (.inr (.inl ⟨hl, a, u, h1, h2, h3 ▸ hdf u h h3⟩))
  · obtain ⟨a, u, h1, h2, h3⟩ := hone l hl h
    by_cases hl' : l' = []
    · rw [hl'] at h'
      exact .inr (.inr (.inr ⟨hl', a, u, h1, h2, h3 ▸ hdf u h' h3⟩))
    · obtain ⟨b, u', h1', h2', h3'⟩ := hone l' hl' h'
      refine .inr (.inl ⟨a, b, u, h1, h1', h2, ?_⟩)
      rw [h3] at h3'
      have : u = u' := by
        cases o <;> cases h3' <;> rfl
      rw [this]
      exact h2'

theorem slot_absent_ne {env : Env} {s : Slot} {df : Option Val} {l : List Elem} {v : Val} (hl : l ≠ []) (h : df.or (slotAbsent s) = some v)
    (h' : slotValue s none (l.map (Elem.kid env)) = some v) : df = some v := by
  cases df with
  | some d => exact h
  | none =>
    exfalso
    cases l with
    | nil => exact hl rfl
    | cons u l =>
      simp only [List.map_cons, slotValue] at h'
      simp only [Option.none_or, slotAbsent] at h
      cases hc : s.card with
      | one => rw [hc] at h; cases h
      | opt =>
        rw [hc] at h h'
        cases h
        dsimp only at h'
        split at h'
        · obtain ⟨_, -, h⟩ := Option.map_eq_some_iff.mp h'
          cases h
        · cases h'
      | many =>
        rw [hc] at h h'
        cases h
        obtain ⟨ws, h1, h2⟩ := Option.map_eq_some_iff.mp h'
        cases h2
        have := allAs_rows.mp (show allAs s.ty ((u :: l).map (Elem.kid env)) = some [] from h1)
        cases this

/-- What has the same value is alike, if that is so of the children. -/
theorem alike_step (env : Env) (hok : EnvOk env) (x : Elem)
    (ih : ∀ u ∈ x.children.children, ∀ ty v y, bodyValue env (u.body env) ty = some v → bodyValue env (Elem.body env y) ty = some v → Alike env ty u y)
    (ty : Ty) (v : Val) (y : Elem) (h : bodyValue env (x.body env) ty = some v) (h' : bodyValue env (y.body env) ty = some v) : Alike env ty x y := by
  cases ty with
  | text t =>
    simp only [bodyValue, Elem.body, kids_children] at h h'
    cases hx : x.children.children with
    | cons _ _ => rw [hx] at h; cases h
    | nil =>
      cases hy : y.children.children with
      | cons _ _ => rw [hy] at h'; cases h'
      | nil =>
        rw [hx] at h
        rw [hy] at h'
        simp only [List.map_nil] at h h'
        split at h
        · rename_i u hu
          cases h
          split at h'
          · rename_i u' hu'
            cases h'
            exact .text hx hy hu hu'
          · cases h'
        · cases h
  | enm i =>
    simp only [bodyValue, Elem.body, kids_children] at h h'
    obtain ⟨w, h1, h2, h3⟩ := enum_same env hok i h h'
    refine .enm h1 h2 (fun s hs => rows_length (h3 s hs)) fun s p u u' hs hu hu' => ?_
    obtain ⟨v, k1, k2⟩ := rows_get (h3 s hs) p u u' hu hu'
    exact ih u (List.mem_filter.mp (List.mem_of_getElem? hu)).1 _ v u' k1 k2
  | strct i =>
    simp only [bodyValue, structValue] at h h'
    obtain ⟨vs, hvs, rfl⟩ := Option.map_eq_some_iff.mp h
    obtain ⟨vs', hvs', hv⟩ := Option.map_eq_some_iff.mp h'
    cases hv
    have hfield : ∀ pre f post, (env.strct i).fields = pre ++ f :: post → ∃ v, fieldValue env (env.strct i).fields (x.body env) (flatTypes pre) f = some v ∧
        fieldValue env (env.strct i).fields (y.body env) (flatTypes pre) f = some v := by
      intro pre f post hf
      have hx : fieldsValue env (env.strct i).fields (x.body env) [] (pre ++ f :: post) = some vs := by rw [← hf]; exact hvs
      have hy : fieldsValue env (env.strct i).fields (y.body env) [] (pre ++ f :: post) = some vs := by rw [← hf]; exact hvs'
      obtain ⟨h1, h2⟩ := fieldsValue_get env _ _ _ pre f post vs hx
      obtain ⟨h1', -⟩ := fieldsValue_get env _ _ _ pre f post vs hy
      rw [List.getElem?_eq_getElem h2] at h1 h1'
      exact ⟨_, h1, h1'⟩
    have hmem : ∀ f ∈ (env.strct i).fields, ∃ pre post, (env.strct i).fields = pre ++ f :: post := fun f hf => List.append_of_mem hf
    have hrows : ∀ f s, f ∈ (env.strct i).fields → f.kind = .element s →
        (x.children.childrenNamed f.name.expanded = [] ∧ y.children.childrenNamed f.name.expanded = []) ∨
        Rowwise (fun u u' => ∃ v, bodyValue env (u.body env) s.ty = some v ∧ bodyValue env (u'.body env) s.ty = some v)
          (x.children.childrenNamed f.name.expanded) (y.children.childrenNamed f.name.expanded) ∨
        Defaulted env f s x y ∨ Defaulted env f s y x := by
      intro f s hf hk
      obtain ⟨pre, post, hs⟩ := hmem f hf
      obtain ⟨v, h1, h2⟩ := hfield pre f post hs
      simp only [fieldValue, hk, Elem.body] at h1 h2
      by_cases hx : x.children.childrenNamed f.name.expanded = []
      · by_cases hy : y.children.childrenNamed f.name.expanded = []
        · exact .inl ⟨hx, hy⟩
        · refine .inr (.inr (.inl ⟨hx, hy, v, ?_, ?_⟩))
          · rw [named_children, slotValue_absent s _ _ (by simpa using hy)] at h2
            rw [named_children, hx] at h1
            exact slot_absent_ne hy h1 h2
          · rw [slotValue_absent s _ _ (by rw [named_children]; simpa using hy)] at h2
            exact h2
      · by_cases hy : y.children.childrenNamed f.name.expanded = []
        · refine .inr (.inr (.inr ⟨hy, hx, v, ?_, ?_⟩))
          · rw [named_children, slotValue_absent s _ _ (by simpa using hx)] at h1
            rw [named_children, hy] at h2
            exact slot_absent_ne hx h2 h1
          · rw [slotValue_absent s _ _ (by rw [named_children]; simpa using hx)] at h1
            exact h1
        · rw [named_children, slotValue_absent s _ _ (by simpa using hx)] at h1
          rw [named_children, slotValue_absent s _ _ (by simpa using hy)] at h2
          exact .inr (.inl (slot_rows hx hy h1 h2))
    have hleft : ∀ es l, ∀ u ∈ leftBy env es l, u ∈ l := by
      intro es
      induction es with
      | nil => intro l u hu; exact hu
      | cons e es ihe => intro l u hu; exact (List.takeWhile_sublist _).subset (ihe _ u hu)
    have hflat : ∀ pre f post e, (env.strct i).fields = pre ++ f :: post → f.kind = .flatten e → ∃ w,
        OneChoice (env.enm e) w (leftBy env (flatTypes pre) (notFields (env.strct i).fields x)) ∧
        OneChoice (env.enm e) w (leftBy env (flatTypes pre) (notFields (env.strct i).fields y)) ∧ ∀ s, w.slot = some s →
          Rowwise (fun u u' => ∃ v, bodyValue env (u.body env) s.ty = some v ∧ bodyValue env (u'.body env) s.ty = some v)
            (withName w.name.expanded (leftBy env (flatTypes pre) (notFields (env.strct i).fields x)))
            (withName w.name.expanded (leftBy env (flatTypes pre) (notFields (env.strct i).fields y))) := by
      intro pre f post e hf hk
      obtain ⟨v, h1, h2⟩ := hfield pre f post hf
      simp only [fieldValue, hk, Elem.body, strangers_notFields, past_left env hok] at h1 h2
      exact enum_same env hok e h1 h2
    refine .strct ?_ ?_ ?_ ?_ ?_ ?_
    · intro f o t hf hk
      obtain ⟨pre, post, hs⟩ := hmem f hf
      obtain ⟨v, h1, h2⟩ := hfield pre f post hs
      simp only [fieldValue, hk, Elem.body] at h1 h2
      exact attr_same h1 h2
    · intro f s hf hk
      rcases hrows f s hf hk with ⟨h1, h2⟩ | h | h
      · exact .inl (by rw [h1, h2])
      · exact .inl (rows_length h)
      · exact .inr h
    · intro f s p u u' hf hk hl hu hu'
      rcases hrows f s hf hk with ⟨h1, h2⟩ | h | ⟨h1, h2, -⟩ | ⟨h1, h2, -⟩
      · rw [h1] at hu; cases hu
      · obtain ⟨v, k1, k2⟩ := rows_get h p u u' hu hu'
        exact ih u (List.mem_filter.mp (List.mem_of_getElem? hu)).1 _ v u' k1 k2
      · rw [h1] at hu; cases hu
      · rw [h1] at hu'; cases hu'
    · intro pre f post e hf hk
      obtain ⟨w, h1, h2, -⟩ := hflat pre f post e hf hk
      exact ⟨w, h1, h2⟩
    · intro pre f post e w s hf hk hc hs
      obtain ⟨w', h1, h2, h3⟩ := hflat pre f post e hf hk
      obtain rfl := oneChoice_unique hok hc h1
      exact rows_length (h3 s hs)
    · intro pre f post e w s p u u' hf hk hc hs hu hu'
      obtain ⟨w', h1, h2, h3⟩ := hflat pre f post e hf hk
      obtain rfl := oneChoice_unique hok hc h1
      obtain ⟨v, k1, k2⟩ := rows_get (h3 s hs) p u u' hu hu'
      have hm : u ∈ notFields (env.strct i).fields x := hleft _ _ u (List.mem_filter.mp (List.mem_of_getElem? hu)).1
      exact ih u (List.mem_filter.mp hm).1 _ v u' k1 k2

theorem children_alike (env : Env) (hok : EnvOk env) (F : Forest) :
    ∀ u ∈ F.children, ∀ ty v y, bodyValue env (u.body env) ty = some v → bodyValue env (Elem.body env y) ty = some v → Alike env ty u y := by
  induction F with
  | nil => intro u hu; cases hu
  | elem n a ns p ch ep rest ihc ih =>
    intro u hu
    rcases List.mem_cons.mp hu with rfl | hu
    · exact alike_step env hok _ ihc
    · exact ih u hu
  | chars s c p rest ih => exact ih
  | misc m p rest ih => exact ih

theorem value_alike (env : Env) (hok : EnvOk env) {ty : Ty} {x y : Elem} {v : Val} (h : bodyValue env (x.body env) ty = some v)
    (h' : bodyValue env (y.body env) ty = some v) : Alike env ty x y :=
  alike_step env hok x (children_alike env hok _) ty v y h h'

end SX
