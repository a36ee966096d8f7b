import Verif.Proof.DeclOrder
import Verif.Props.DeriveFirst

/-
C94: errors.
-/
namespace SX.DeclOrder
open Spec SX.Grow

variable {m : Places} {env env' : Env}

/-- Where and what. -/
def SameWhat (a a' : List StackElem × ErrKind) : Prop := a'.1 = a.1 ∧ (a'.2 = a.2 ∨ Missing a.2 ∧ Missing a'.2)

structure SameDefect (d d' : Defect) : Prop where
  rel : d'.rel = d.rel
  late : d'.late = d.late
  kind : d'.kind = d.kind ∨ Missing d.kind ∧ Missing d'.kind

structure KidErr (m : Places) (env env' : Env) (k k' : Kid) : Prop extends KidRel m env env' k k' where
  node : k'.node = k.node
  err : ∀ ty, OptRel SameDefect (k.err ty) (k'.err ty)

abbrev KidsErr (m : Places) (env env' : Env) : List Kid → List Kid → Prop := Rowwise (KidErr m env env')

theorem KidsErr.kids {ks ks' : List Kid} (h : KidsErr m env env' ks ks') : Kids m env env' ks ks' := by
  induction h with
  | nil => exact .nil
  | cons h _ ih => exact .cons h.toKidRel ih

theorem rowwise_append {α β : Type} {R : α → β → Prop} {l : List α} {l' : List β} (h : Rowwise R l l') {k : List α} {k' : List β} (h' : Rowwise R k k') :
    Rowwise R (l ++ k) (l' ++ k') := by
  induction h with
  | nil => exact h'
  | cons h _ ih => exact .cons h ih

theorem scan_rel {α α' β β' : Type} {R : α → α' → Prop} {S : β → β' → Prop} {f : List α → α → Option β} {f' : List α' → α' → Option β'}
    (hf : ∀ l l' a a', Rowwise R l l' → R a a' → OptRel S (f l a) (f' l' a')) {l : List α} {l' : List α'} (h : Rowwise R l l') {seen : List α} {seen' : List α'}
    (hs : Rowwise R seen seen') : OptRel S (scan f seen l) (scan f' seen' l') := by
  induction h generalizing seen seen' with
  | nil => exact .none
  | @cons a b l m h t ih =>
    simp only [scan]
    have h1 := hf _ _ _ _ hs h
    generalize f seen a = x at h1
    generalize f' seen' b = y at h1
    cases h1 with
    | none => exact ih (rowwise_append hs (.cons h .nil))
    | some h1 => exact .some h1

theorem nil_rel {α β : Type} {R : α → β → Prop} {l : List α} {l' : List β} (h : Rowwise R l l') : l' = [] ↔ l = [] := rowwise_nil_iff h

theorem slotErr_rel (s : Slot) {seen seen' : List Kid} (hs : KidsErr m env env' seen seen') {k k' : Kid} (hk : KidErr m env env' k k') :
    OptRel SameWhat (slotErr s seen k) (slotErr s seen' k') := by
  simp only [slotErr, Ne, nil_rel hs, hk.name]
  split
  · rw [hk.node]
    exact .some ⟨rfl, .inl rfl⟩
  · exact (hk.err s.ty).map fun d d' h => ⟨by rw [hk.node, h.rel], h.kind⟩

theorem variantErr_rel (hr : Reordered m env env') (e : Nat) {j : Nat} (hj : j < (env'.enm e).variants.length)
    {seen seen' : List Kid} (hs : KidsErr m env env' seen seen') {k k' : Kid} (hk : KidErr m env env' k k') :
    OptRel SameWhat (variantErr (env.enm e) (m.variant e j) seen k) (variantErr (env'.enm e) j seen' k') := by
  obtain ⟨w, h1, -, h3⟩ := hr.variants e j _ (List.getElem?_eq_getElem hj)
  simp only [variantErr, h1, List.getElem?_eq_getElem hj, h3]
  cases w.slot with
  | none => exact .none
  | some s => exact slotErr_rel s hs hk

theorem choicesErr_rel (hok : EnvOk env) (hok' : EnvOk env') (hr : Reordered m env env') (e : Nat) {ks ks' : List Kid} (h : KidsErr m env env' ks ks') :
    Rowwise (fun (c c' : Nat × Kid) => c.1 = m.variant e c'.1 ∧ c'.1 < (env'.enm e).variants.length ∧ KidErr m env env' c.2 c'.2) (choices (env.enm e) ks) (choices (env'.enm e) ks') := by
  induction h with
  | nil => exact .nil
  | @cons k k' l l' h t ih =>
    simp only [choices, List.filterMap_cons, h.name] at ih ⊢
    rw [variantOf_rel hok hok' hr]
    cases hv : variantOf (env'.enm e) k.name with
    | none => exact ih
    | some j =>
      obtain ⟨w, hw, -⟩ := (variantOf_iff env' hok' e _ j).mp hv
      exact .cons ⟨rfl, (List.getElem?_eq_some_iff.mp hw).1, h⟩ ih

theorem enumErr_rel (hok : EnvOk env) (hok' : EnvOk env') (hr : Reordered m env env') (e : Nat) {seen seen' : List Kid} (hs : KidsErr m env env' seen seen')
    {k k' : Kid} (hk : KidErr m env env' k k') : OptRel SameWhat (enumErr (env.enm e) seen k) (enumErr (env'.enm e) seen' k') := by
  unfold enumErr
  rw [hk.name, variantOf_rel hok hok' hr]
  have hc := choicesErr_rel hok hok' hr e hs
  cases hv : variantOf (env'.enm e) k.name with
  | none => exact .none
  | some j =>
    obtain ⟨w, hw, -⟩ := (variantOf_iff env' hok' e _ j).mp hv
    have hj := (List.getElem?_eq_some_iff.mp hw).1
    generalize choices (env.enm e) seen = c at hc
    generalize choices (env'.enm e) seen' = c' at hc
    cases hc with
    | nil => exact variantErr_rel hr e hj .nil hk
    | @cons a b l l' h t =>
      obtain ⟨i0, k0⟩ := a
      obtain ⟨j0, k0'⟩ := b
      obtain ⟨h1, h2, h3⟩ := h
      dsimp only at h1 h2 h3
      subst h1
      simp only [Option.map_some]
      by_cases hjj : j = j0
      · subst hjj
        rw [if_pos rfl, if_pos rfl]
        exact variantErr_rel hr e hj (.cons h3 (rowwise_map (fun _ _ h => h.2.2) t)) hk
      · rw [if_neg hjj, if_neg fun h => hjj (variant_once hok hok' hr e hj h2 h)]
        obtain ⟨w0, g1, g2, -⟩ := hr.variants e j0 _ (List.getElem?_eq_getElem h2)
        simp only [g1, List.getElem?_eq_getElem h2, g2, hk.node]
        exact .some ⟨rfl, .inl rfl⟩

theorem flatErr_rel (hok : EnvOk env) (hok' : EnvOk env') (hr : Reordered m env env') (es : List Nat) {seen seen' : List Kid} (hs : KidsErr m env env' seen seen')
    {k k' : Kid} (hk : KidErr m env env' k k') : OptRel SameWhat (flatErr env es seen k) (flatErr env' es seen' k') := by
  induction es with
  | nil => exact .none
  | cons e es ih =>
    simp only [flatErr, nil_rel (choicesErr_rel hok hok' hr e hs), hk.name, variantOf_rel hok hok' hr, Option.map_eq_none_iff]
    split
    · exact ih
    · exact enumErr_rel hok hok' hr e hs hk

theorem elemSlot_iff {e : Env} (hok : EnvOk e) (i : Nat) (n : EName) (s : Slot) :
    elemSlot (e.strct i).fields n = some s ↔ ∃ f ∈ (e.strct i).fields, f.kind = .element s ∧ f.name.expanded = n := by
  have hu := hok.elems i
  revert hu
  generalize (e.strct i).fields = l
  intro hu
  induction l with
  | nil => simp [elemSlot]
  | cons f l ih =>
    have ih := ih fun p q f g s s' hf hg => fun h1 h2 h3 => by
      have := hu (p + 1) (q + 1) f g s s' (by simpa using hf) (by simpa using hg) h1 h2 h3
      omega
    have skip : (∀ s, f.kind = .element s → f.name.expanded ≠ n) → ((∃ g ∈ l, g.kind = .element s ∧ g.name.expanded = n) ↔
        ∃ g ∈ f :: l, g.kind = .element s ∧ g.name.expanded = n) := by
      intro hne
      constructor
      · rintro ⟨g, h1, h2⟩; exact ⟨g, List.mem_cons_of_mem _ h1, h2⟩
      · rintro ⟨g, h1, h2, h3⟩
        rcases List.mem_cons.mp h1 with rfl | h1
        · exact absurd h3 (hne s h2)
        · exact ⟨g, h1, h2, h3⟩
    simp only [elemSlot]
    split
    · rename_i s0 hk
      split
      · rename_i hn
        constructor
        · intro h
          cases h
          exact ⟨f, List.mem_cons_self .., hk, hn⟩
        · rintro ⟨g, h1, h2, h3⟩
          obtain ⟨q, hq⟩ := List.getElem?_of_mem h1
          have := hu 0 q f g s0 s rfl hq hk h2 (by rw [hn, h3])
          subst this
          simp only [List.getElem?_cons_zero, Option.some.injEq] at hq
          subst hq
          rw [hk] at h2
          cases h2
          rfl
      · rename_i hn
        exact ih.trans (skip fun s' h => hn)
    · rename_i hk
      exact ih.trans (skip fun s' h => absurd h (hk s'))

theorem attrType_iff {e : Env} (hok : EnvOk e) (i : Nat) (n : EName) (t : TextTy) :
    attrType (e.strct i).fields n = some t ↔ ∃ f ∈ (e.strct i).fields, ∃ o, f.kind = .attribute o t ∧ f.name.expanded = n := by
  have hu := hok.attrs i
  revert hu
  generalize (e.strct i).fields = l
  intro hu
  induction l with
  | nil => simp [attrType]
  | cons f l ih =>
    have ih := ih fun p q f g o s o' s' hf hg => fun h1 h2 h3 => by
      have := hu (p + 1) (q + 1) f g o s o' s' (by simpa using hf) (by simpa using hg) h1 h2 h3
      omega
    have skip : (∀ o s, f.kind = .attribute o s → f.name.expanded ≠ n) → ((∃ g ∈ l, ∃ o, g.kind = .attribute o t ∧ g.name.expanded = n) ↔
        ∃ g ∈ f :: l, ∃ o, g.kind = .attribute o t ∧ g.name.expanded = n) := by
      intro hne
      constructor
      · rintro ⟨g, h1, h2⟩; exact ⟨g, List.mem_cons_of_mem _ h1, h2⟩
      · rintro ⟨g, h1, o, h2, h3⟩
        rcases List.mem_cons.mp h1 with rfl | h1
        · exact absurd h3 (hne o t h2)
        · exact ⟨g, h1, o, h2, h3⟩
    simp only [attrType]
    split
    · rename_i o0 t0 hk
      split
      · rename_i hn
        constructor
        · intro h
          cases h
          exact ⟨f, List.mem_cons_self .., _, hk, hn⟩
        · rintro ⟨g, h1, o, h2, h3⟩
          obtain ⟨q, hq⟩ := List.getElem?_of_mem h1
          have := hu 0 q f g o0 t0 o t rfl hq hk h2 (by rw [hn, h3])
          subst this
          simp only [List.getElem?_cons_zero, Option.some.injEq] at hq
          subst hq
          rw [hk] at h2
          cases h2
          rfl
      · rename_i hn
        exact ih.trans (skip fun o' s' h => hn)
    · rename_i hk
      exact ih.trans (skip fun o' s' h => absurd h (hk o' s'))

theorem exists_rel (hr : Reordered m env env') (i : Nat) (P : Kind → EName → Prop) (hP : ∀ k n, P k n → ∀ e, k ≠ .flatten e) :
    (∃ f ∈ (env'.strct i).fields, P f.kind f.name.expanded) ↔ ∃ f ∈ (env.strct i).fields, P f.kind f.name.expanded := by
  constructor
  · rintro ⟨f', hf, h⟩
    obtain ⟨p, hp⟩ := List.getElem?_of_mem hf
    obtain ⟨f, h1, h2⟩ := hr.fields i p _ hp
    refine ⟨f, List.mem_of_getElem? h1, ?_⟩
    have hk := hP _ _ h
    rw [h2.kind] at hk
    rw [← h2.kind, ← h2.name hk]
    exact h
  · rintro ⟨f, hf, h⟩
    obtain ⟨q, hq⟩ := List.getElem?_of_mem hf
    obtain ⟨p, hp, rfl⟩ := hr.all i q (List.getElem?_eq_some_iff.mp hq).1
    obtain ⟨f0, h1, h2⟩ := hr.fields i p _ (List.getElem?_eq_getElem hp)
    rw [hq] at h1
    cases h1
    refine ⟨_, List.getElem_mem hp, ?_⟩
    rw [h2.kind, h2.name (hP _ _ h)]
    exact h

theorem elemSlot_rel (hok : EnvOk env) (hok' : EnvOk env') (hr : Reordered m env env') (i : Nat) (n : EName) :
    elemSlot (env'.strct i).fields n = elemSlot (env.strct i).fields n := by
  apply Option.ext
  intro s
  rw [elemSlot_iff hok', elemSlot_iff hok]
  exact exists_rel hr i (fun k x => k = .element s ∧ x = n) fun k x h e => by rw [h.1]; simp

theorem attrType_rel (hok : EnvOk env) (hok' : EnvOk env') (hr : Reordered m env env') (i : Nat) (n : EName) :
    attrType (env'.strct i).fields n = attrType (env.strct i).fields n := by
  apply Option.ext
  intro t
  rw [attrType_iff hok', attrType_iff hok]
  exact exists_rel hr i (fun k x => ∃ o, k = .attribute o t ∧ x = n) fun k x ⟨o, h, _⟩ e => by rw [h]; simp

theorem attrErr_rel (hok : EnvOk env) (hok' : EnvOk env') (hr : Reordered m env env') (i : Nat) : attrErr (env'.strct i).fields = attrErr (env.strct i).fields := by
  funext seen a
  simp only [attrErr, attrType_rel hok hok' hr i]

theorem structErr_rel (hok : EnvOk env) (hok' : EnvOk env') (hr : Reordered m env env') (i : Nat) (seen seen' : List Kid) (k k' : Kid) (hs : KidsErr m env env' seen seen')
    (hk : KidErr m env env' k k') : OptRel SameWhat (structErr env (env.strct i).fields seen k) (structErr env' (env'.strct i).fields seen' k') := by
  unfold structErr
  rw [hk.name, elemSlot_rel hok hok' hr i, flatTypes_rel hr i]
  split
  · exact slotErr_rel _ (rowwise_filter2 (fun a b hab => by rw [hab.name]) hs) hk
  · exact flatErr_rel hok hok' hr _ (rowwise_filter2 (fun a b hab => by rw [hab.name, declaredElem_rel hr i]) hs) hk

theorem gap_missing (e : Env) (all : List Field) (b : Body) (fs : List Field) (earlier : List Nat) (k : ErrKind) (h : gap e all b earlier fs = some k) : Missing k := by
  induction fs generalizing earlier with
  | nil => cases h
  | cons f fs ih =>
    simp only [gap] at h
    split at h <;> (try split at h) <;> first | exact ih _ h | (cases h; trivial)

/-- Attributes and children are wrong in the same way; if nothing is wrong with them, something is missing or nothing, as the values say. -/
theorem bodyErr_rel (hok : EnvOk env) (hok' : EnvOk env') (hr : Reordered m env env') {b b' : Body} (hb : KidsErr m env env' b.kids b'.kids)
    (ha : b'.attrs = b.attrs) (ht : b'.text = b.text) (ty : Ty) (hc : bodyErr env b ty = none ↔ bodyValue env b ty ≠ none)
    (hc' : bodyErr env' b' ty = none ↔ bodyValue env' b' ty ≠ none) : OptRel SameDefect (bodyErr env b ty) (bodyErr env' b' ty) := by
  have hnone : bodyErr env b ty = none ↔ bodyErr env' b' ty = none := by
    rw [hc, hc']
    have := bodyValue_rel hok hok' hr hb.kids ha ht ty
    revert this
    generalize bodyValue env b ty = x
    generalize bodyValue env' b' ty = y
    intro h
    cases h <;> simp
  clear hc hc'
  cases ty with
  | text t =>
    clear hnone
    simp only [bodyErr, ht]
    generalize b.kids = k at hb
    generalize b'.kids = k' at hb
    cases hb with
    | nil =>
      cases t.parse b.text with
      | err e => exact .some ⟨rfl, rfl, .inl rfl⟩
      | _ => exact .none
    | cons h _ =>
      simp only [h.node]
      exact .some ⟨rfl, rfl, .inl rfl⟩
  | strct i =>
    simp only [bodyErr, ha, attrErr_rel hok hok' hr i] at hnone ⊢
    cases hs : scan (attrErr (env.strct i).fields) [] b.attrs with
    | some k => exact .some ⟨rfl, rfl, .inl rfl⟩
    | none =>
      simp only [hs] at hnone ⊢
      have h := scan_rel (structErr_rel hok hok' hr i) hb .nil
      revert h hnone
      generalize scan (structErr env (env.strct i).fields) [] b.kids = x
      generalize scan (structErr env' (env'.strct i).fields) [] b'.kids = y
      intro hnone h
      cases h with
      | @some a a' h => exact .some ⟨h.1, rfl, h.2⟩
      | none =>
        dsimp only at hnone ⊢
        cases hg : gap env (env.strct i).fields b [] (env.strct i).fields with
        | none =>
          rw [hg] at hnone
          rw [hnone.mp rfl]
          exact .none
        | some k =>
          cases hg' : gap env' (env'.strct i).fields b' [] (env'.strct i).fields with
          | none => rw [hg, hg'] at hnone; exact absurd (hnone.mpr rfl) (by simp)
          | some k' => exact .some ⟨rfl, rfl, .inr ⟨gap_missing _ _ _ _ _ _ hg, gap_missing _ _ _ _ _ _ hg'⟩⟩
  | enm e =>
    clear hnone
    simp only [bodyErr]
    have h := scan_rel (fun l l' a a' h h' => enumErr_rel hok hok' hr e h h') hb .nil
    revert h
    generalize scan (enumErr (env.enm e)) [] b.kids = x
    generalize scan (enumErr (env'.enm e)) [] b'.kids = y
    intro h
    cases h with
    | some h => exact .some ⟨h.1, rfl, h.2⟩
    | none =>
      dsimp only
      simp only [nil_rel (choicesErr_rel hok hok' hr e hb), hr.idents]
      split
      · exact .some ⟨rfl, rfl, .inl rfl⟩
      · exact .none

/-- C44_complete, for any element. -/
theorem complete {e : Env} (hok : EnvOk e) (n : QName) (a : List XAttr) (p : Pos) (ch : Forest) (ty : Ty) :
    bodyErr e { attrs := a, kids := kids e ch, text := ch.text } ty = none ↔ bodyValue e { attrs := a, kids := kids e ch, text := ch.text } ty ≠ none :=
  C44_complete e hok ty { startPos := ⟨0, 0⟩, prolog := [], epilog := [], eofPos := ⟨0, 0⟩, epilogOk := by simp
                          root := { name := n, attrs := a, ns := [], pos := p, children := ch, endPos := ⟨0, 0⟩ } }

theorem kidsErr_rel (hok : EnvOk env) (hok' : EnvOk env') (hr : Reordered m env env') (f : Forest) : KidsErr m env env' (kids env f) (kids env' f) := by
  induction f with
  | nil => exact .nil
  | elem n a _ p ch _ rest ih1 ih2 =>
    exact .cons { name := rfl, node := rfl,
                  as := fun ty => bodyValue_rel hok hok' hr (b := { attrs := a, kids := kids env ch, text := ch.text })
                    (b' := { attrs := a, kids := kids env' ch, text := ch.text }) ih1.kids rfl rfl ty
                  err := fun ty => bodyErr_rel hok hok' hr (b := { attrs := a, kids := kids env ch, text := ch.text })
                    (b' := { attrs := a, kids := kids env' ch, text := ch.text }) ih1 rfl rfl ty (complete hok n a p ch ty) (complete hok' n a p ch ty) } ih2
  | chars _ _ _ rest ih => exact ih
  | misc _ _ rest ih => exact ih

end SX.DeclOrder
