import Verif.Spec.RoundTrip
import Verif.Proof.DeriveProps

namespace SX
open Spec

/-! ### Kids of what was written -/

theorem denotes_elem {env : Env} {f : EForest} {F : Forest} (h : Denotes f F) : ∀ n as c rest, f = .elem n as c rest →
    ∃ (q : QName) (attrs : List XAttr) (pos : Pos) (c' rest' : Forest), q.expanded = n ∧
      attrs.map (fun a => (a.name.expanded, a.value)) = as ∧ Denotes c c' ∧ Denotes rest rest' ∧
      kids env F = { node := { name := q, pos := pos }
                     as := bodyValue env { attrs := attrs, kids := kids env c', text := c'.text }
                     bad := bodyBad env { attrs := attrs, kids := kids env c', text := c'.text }
                     err := bodyErr env { attrs := attrs, kids := kids env c', text := c'.text } } :: kids env rest' ∧
      F.text = rest'.text := by
  induction h with
  | nil => intro n as c rest h; cases h
  | elem hn ha hc hr =>
    intro n as c rest h
    cases h
    exact ⟨_, _, _, _, _, hn, ha, hc, hr, rfl, rfl⟩
  | chars => intro n as c rest h; cases h
  | blank => intro n as c rest h; cases h
  | misc h ih =>
    intro n as c rest h
    exact ih n as c rest h

theorem denotes_nil {env : Env} {f : EForest} {F : Forest} (h : Denotes f F) (hf : f = .nil) : kids env F = [] ∧ F.text = "" := by
  induction h with
  | nil => exact ⟨rfl, rfl⟩
  | elem => cases hf
  | chars => cases hf
  | blank => cases hf
  | misc h ih => exact ih hf

theorem denotes_text {env : Env} {f : EForest} {F : Forest} (h : Denotes f F) : ∀ s, f = .chars s .nil → kids env F = [] ∧ F.text = visible s := by
  induction h with
  | nil => intro s h; cases h
  | elem => intro s h; cases h
  | chars hs hr =>
    intro s h
    cases h
    have := denotes_nil (env := env) hr rfl
    exact ⟨this.1, by simp [Forest.text, this.2, visible, hs]⟩
  | blank hs hr =>
    intro s h
    cases h
    have := denotes_nil (env := env) hr rfl
    exact ⟨this.1, by simp [this.2, visible, hs]⟩
  | misc h ih => intro s h; exact ih s h

/-! ### Pairs -/

inductive Paired {α β : Type} (R : α → β → Prop) : List α → List β → Prop where
  | nil : Paired R [] []
  | cons {a : α} {b : β} {l : List α} {m : List β} (h : R a b) (t : Paired R l m) : Paired R (a :: l) (b :: m)

theorem Paired.filter {α β : Type} {R : α → β → Prop} {l : List α} {m : List β} (h : Paired R l m) (P : α → Bool) (Q : β → Bool)
    (hpq : ∀ a b, R a b → P a = Q b) : Paired R (l.filter P) (m.filter Q) := by
  induction h with
  | nil => exact .nil
  | @cons a b l m h t ih =>
    simp only [List.filter_cons, hpq a b h]
    split
    · exact .cons h ih
    · exact ih

/-- A child element, read as the type it was written as, has the value it was written from. -/
def Matches (it : Item) (k : Kid) : Prop := k.name = it.name ∧ ∀ ty v, it.value = some (ty, v) → k.as ty = some v

theorem paired_fieldItems {s : Slot} {n : EName} {v : Val} {ks : List Kid} (h : Paired Matches (fieldItems s n v) ks) :
    Paired (fun x k => Kid.name k = n ∧ Kid.as k s.ty = some x) (valuesOf s.card v) ks := by
  unfold fieldItems at h
  generalize valuesOf s.card v = l at h
  induction l generalizing ks with
  | nil => cases h; exact .nil
  | cons x l ih =>
    cases h with
    | cons h t => exact .cons ⟨h.1, h.2 _ _ rfl⟩ (ih t)

theorem paired_allAs {n : EName} {ty : Ty} {l : List Val} {ks : List Kid} (h : Paired (fun x k => Kid.name k = n ∧ Kid.as k ty = some x) l ks) :
    allAs ty ks = some l := by
  induction h with
  | nil => rfl
  | cons h t ih => simp [allAs, h.2, ih]

/-- The value of a field from the children written for it. -/
theorem slotValue_paired {s : Slot} {n : EName} {v : Val} {ks : List Kid} {absent : Option Val} (hc : CardOk s.card v)
    (ha : valuesOf s.card v = [] → absent = some v) (h : Paired Matches (fieldItems s n v) ks) :
    slotValue s absent ks = some v := by
  have hp := paired_fieldItems h
  obtain ⟨card, ty⟩ := s
  cases card with
  | one =>
    simp only [valuesOf] at hp
    cases hp with
    | cons h' t => cases t; simp [slotValue, h'.2]
  | opt =>
    obtain ⟨o, rfl⟩ := hc
    cases o with
    | none => simp only [valuesOf] at hp ha; cases hp; exact ha trivial
    | some x =>
      simp only [valuesOf] at hp
      cases hp with
      | cons h' t => cases t; simp [slotValue, h'.2]
  | many =>
    obtain ⟨l, rfl⟩ := hc
    simp only [valuesOf] at hp ha
    cases l with
    | nil => cases hp; exact ha rfl
    | cons x l =>
      have := paired_allAs hp
      cases hp with
      | cons h t =>
        simp only [slotValue, this, Option.map_some]

theorem variantOf_eq {env : Env} (hok : EnvOk env) {i j : Nat} {w : Variant} (hv : (env.enm i).variants[j]? = some w) :
    variantOf (env.enm i) w.name.expanded = some j := by
  unfold variantOf
  rw [List.findIdx?_eq_some_iff_getElem]
  have hj : j < (env.enm i).variants.length := by
    rw [List.getElem?_eq_some_iff] at hv; exact hv.1
  have hw : (env.enm i).variants[j] = w := by
    rw [List.getElem?_eq_some_iff] at hv; exact hv.2
  refine ⟨hj, ?_, ?_⟩
  · simp [hw, hok.noSkip i w (List.mem_of_getElem? hv)]
  · intro k hk
    simp only [Bool.and_eq_true, Bool.not_eq_eq_eq_not, Bool.not_true, beq_iff_eq, not_and]
    intro _ heq
    have := hok.variants i k j _ w (by rw [List.getElem?_eq_some_iff]; exact ⟨by omega, rfl⟩) hv heq
    omega

theorem choices_of_named {d : EnumDef} {n : EName} {j : Nat} (hv : variantOf d n = some j) {ks : List Kid} (h : ∀ k ∈ ks, k.name = n) :
    choices d ks = ks.map fun k => (j, k) := by
  induction ks with
  | nil => rfl
  | cons k ks ih =>
    have := ih fun k hk => h k (by simp [hk])
    unfold choices at this ⊢
    simp only [List.filterMap_cons, h k (by simp), hv, Option.map_some, List.map_cons, this]

theorem paired_names {s : Slot} {n : EName} {v : Val} {ks : List Kid} (h : Paired Matches (fieldItems s n v) ks) : ∀ k ∈ ks, Kid.name k = n := by
  have := paired_fieldItems h
  generalize valuesOf s.card v = l at this
  induction this with
  | nil => simp
  | cons h' t ih =>
    intro k hk
    simp only [List.mem_cons] at hk
    rcases hk with rfl | hk
    · exact h'.1
    · clear h
      rename_i ks'
      clear ih
      induction t with
      | nil => simp at hk
      | cons h t ih =>
        simp only [List.mem_cons] at hk
        rcases hk with rfl | hk
        · exact h.1
        · exact ih hk

theorem enumValue_paired {env : Env} (hok : EnvOk env) {i : Nat} {v : Val} {ks : List Kid} (hr : Readable env (.enm i) v)
    (h : Paired Matches (variantItems (env.enm i) v) ks) : enumValue (env.enm i) ks = some v := by
  cases hr with
  | @unit _ j w hv hs =>
    have hsk := hok.noSkip i w (List.mem_of_getElem? hv)
    simp only [variantItems, hv, hs, hsk, Bool.false_eq_true, if_false] at h
    cases h with
    | @cons _ k _ _ h t =>
      cases t
      have hn : k.name = w.name.expanded := h.1
      simp [enumValue, choices, hn, variantOf_eq hok hv, hv, hs]
  | @payload _ j w s p hv hs card ne items =>
    have hsk := hok.noSkip i w (List.mem_of_getElem? hv)
    simp only [variantItems, hv, hs, hsk, Bool.false_eq_true, if_false] at h
    have hch := choices_of_named (variantOf_eq hok hv) (paired_names h)
    have hval := slotValue_paired (absent := none) card (fun h => absurd h ne) h
    cases ks with
    | nil => simp [slotValue] at hval
    | cons k ks =>
      unfold enumValue
      simp only [List.map_cons] at hch
      simp [hch, hv, hs, List.all_eq_true]
      rw [show ((Prod.snd : Nat × Kid → Kid) ∘ fun k => (j, k)) = id from rfl, List.map_id, hval]

/-! ### Structs -/

theorem filter_flatMap' {α β : Type} (l : List α) (g : α → List β) (P : β → Bool) :
    (l.flatMap g).filter P = l.flatMap fun a => (g a).filter P := by
  induction l with
  | nil => rfl
  | cons a l ih => simp [List.flatMap_cons, List.filter_append, ih]

theorem filterMap_toList {α β : Type} (l : List α) (g : α → Option β) : l.filterMap g = l.flatMap fun a => (g a).toList := by
  induction l with
  | nil => rfl
  | cons a l ih =>
    rw [List.filterMap_cons, List.flatMap_cons, ih]
    cases g a <;> rfl

theorem append_nil_of {α : Type} {a b c : List α} (h : a = c) (h' : b = []) : a ++ b = c := by simp [h, h']
theorem nil_append_of {α : Type} {a b c : List α} (h' : a = []) (h : b = c) : a ++ b = c := by simp [h, h']

theorem ex_append {α : Type} {a b c x : List α} (h : a = []) (h' : b = x) : ∃ l, a ++ (b ++ c) = x ++ l := ⟨c, by simp [h, h']⟩

/-- If only one element of a list contributes. -/
theorem flatMap_single {α β : Type} (l : List α) (g : α → List β) (p : Nat) (a : α) (hp : l[p]? = some a)
    (h : ∀ q b, l[q]? = some b → q ≠ p → g b = []) : l.flatMap g = g a := by
  induction l generalizing p with
  | nil => simp at hp
  | cons b l ih =>
    simp only [List.flatMap_cons]
    cases p with
    | zero =>
      simp only [List.getElem?_cons_zero, Option.some.injEq] at hp
      subst hp
      have : l.flatMap g = [] := by
        rw [List.flatMap_eq_nil_iff]
        intro x hx
        obtain ⟨q, hq⟩ := List.mem_iff_getElem?.mp hx
        exact h (q + 1) x (by simpa using hq) (by simp)
      rw [this, List.append_nil]
    | succ p =>
      rw [h 0 b (by simp) (by simp), List.nil_append]
      refine ih p (by simpa using hp) ?_
      intro q c hq hne
      exact h (q + 1) c (by simpa using hq) (by omega)

theorem filter_fieldItems (s : Slot) (n m : EName) (v : Val) :
    (fieldItems s n v).filter (fun it => it.name == m) = if n = m then fieldItems s n v else [] := by
  unfold fieldItems
  split
  · rename_i h
    rw [List.filter_eq_self]
    intro it hit
    simp only [List.mem_map] at hit
    obtain ⟨x, _, rfl⟩ := hit
    simpa using h
  · rename_i h
    rw [List.filter_eq_nil_iff]
    intro it hit
    simp only [List.mem_map] at hit
    obtain ⟨x, _, rfl⟩ := hit
    simpa using h

theorem variantItems_names {d : EnumDef} {v : Val} {it : Item} (h : it ∈ variantItems d v) : ∃ w ∈ d.variants, it.name = w.name.expanded := by
  unfold variantItems at h
  split at h
  · split at h
    · simp at h
    · rename_i w hw
      have hm := List.mem_of_getElem? hw
      split at h
      · simp at h
      · split at h
        · simp only [List.mem_singleton] at h; subst h; exact ⟨w, hm, rfl⟩
        · simp only [fieldItems, List.mem_map] at h
          obtain ⟨x, _, rfl⟩ := h
          exact ⟨w, hm, rfl⟩
        · simp at h
  · simp at h

/-- The items of an element field are those with its name. -/
theorem structItems_named {env : Env} (hok : EnvOk env) (hfl : FlattenOk env) {i : Nat} {vs : List Val} {p : Nat} {f : Field} {s : Slot} {v : Val}
    (hf : (env.strct i).fields[p]? = some f) (hv : vs[p]? = some v) (hk : f.kind = .element s) :
    (structItems env (env.strct i).fields vs).filter (fun it => it.name == f.name.expanded) = fieldItems s f.name.expanded v := by
  have hz : ((env.strct i).fields.zip vs)[p]? = some (f, v) := by
    rw [List.getElem?_zip_eq_some]; exact ⟨hf, hv⟩
  unfold structItems
  rw [List.filter_append, filter_flatMap', filter_flatMap']
  refine append_nil_of ?_ ?_
  · rw [flatMap_single _ _ p (f, v) hz ?_]
    · simp only [hk, filter_fieldItems, if_true]
    · rintro q ⟨g, w⟩ hq hne
      rw [List.getElem?_zip_eq_some] at hq
      simp only
      split
      · rename_i s' hk'
        rw [filter_fieldItems, if_neg]
        intro heq
        exact hne (hok.elems i q p g f s' s hq.1 hf hk' hk heq)
      · rfl
  · rw [List.flatMap_eq_nil_iff]
    intro x hx
    have hx1 := (List.of_mem_zip hx).1
    split
    · rename_i e he
      rw [List.filter_eq_nil_iff]
      intro it hit
      obtain ⟨w, hw, hn⟩ := variantItems_names hit
      simp only [beq_iff_eq, hn]
      exact hfl.apart i f x.1 s e w (List.mem_of_getElem? hf) hx1 hk he hw
    · rfl

theorem declaredElem_iff {fields : List Field} {n : EName} : declaredElem fields n = true ↔ ∃ f ∈ fields, ∃ s, f.kind = .element s ∧ f.name.expanded = n := by
  unfold declaredElem
  rw [List.any_eq_true]
  constructor
  · rintro ⟨f, hf, h⟩
    split at h
    · rename_i s hk; exact ⟨f, hf, s, hk, by simpa using h⟩
    · simp at h
  · rintro ⟨f, hf, s, hk, h⟩
    exact ⟨f, hf, by simp [hk, h]⟩

/-- The other items are those of the flattened field. -/
theorem structItems_strangers {env : Env} (hfl : FlattenOk env) {i : Nat} {vs : List Val} {p : Nat} {f : Field} {e : Nat} {v : Val}
    (hf : (env.strct i).fields[p]? = some f) (hv : vs[p]? = some v) (hk : f.kind = .flatten e) :
    (structItems env (env.strct i).fields vs).filter (fun it => !declaredElem (env.strct i).fields it.name) = variantItems (env.enm e) v := by
  have hz : ((env.strct i).fields.zip vs)[p]? = some (f, v) := by
    rw [List.getElem?_zip_eq_some]; exact ⟨hf, hv⟩
  unfold structItems
  rw [List.filter_append, filter_flatMap', filter_flatMap']
  refine nil_append_of ?_ ?_
  · rw [List.flatMap_eq_nil_iff]
    intro x hx
    have hx1 := (List.of_mem_zip hx).1
    split
    · rename_i s hs
      rw [List.filter_eq_nil_iff]
      intro it hit
      simp only [fieldItems, List.mem_map] at hit
      obtain ⟨y, _, rfl⟩ := hit
      have : declaredElem (env.strct i).fields x.1.name.expanded = true := declaredElem_iff.mpr ⟨x.1, hx1, s, hs, rfl⟩
      simp [this]
    · rfl
  rw [flatMap_single _ _ p (f, v) hz ?_]
  · simp only [hk]
    rw [List.filter_eq_self]
    intro it hit
    obtain ⟨w, hw, hn⟩ := variantItems_names hit
    rw [Bool.not_eq_true', Bool.eq_false_iff]
    intro hd
    obtain ⟨g, hg, s, hs, hgn⟩ := declaredElem_iff.mp hd
    exact hfl.apart i g f s e w hg (List.mem_of_getElem? hf) hs hk hw (by rw [← hn, ← hgn])
  · rintro q ⟨g, w⟩ hq hne
    rw [List.getElem?_zip_eq_some] at hq
    simp only
    split
    · rename_i e' hk'
      exact absurd (hfl.one i q p g f e' e hq.1 hf hk' hk) hne
    · rfl

/-- The attributes of an attribute field are those with its name. -/
theorem structAttrs_named {env : Env} (hok : EnvOk env) {i : Nat} {vs : List Val} {p : Nat} {f : Field} {o : Bool} {t : TextTy} {v : Val}
    (hf : (env.strct i).fields[p]? = some f) (hv : vs[p]? = some v) (hk : f.kind = .attribute o t) :
    (structAttrs (env.strct i).fields vs).filter (fun a => a.1 == f.name.expanded) =
      ((attrText o t v).map fun s => (f.name.expanded, s)).toList := by
  have hz : ((env.strct i).fields.zip vs)[p]? = some (f, v) := by
    rw [List.getElem?_zip_eq_some]; exact ⟨hf, hv⟩
  unfold structAttrs
  rw [filterMap_toList, filter_flatMap', flatMap_single _ _ p (f, v) hz ?_]
  · simp only [hk]
    cases attrText o t v <;> simp
  · rintro q ⟨g, w⟩ hq hne
    rw [List.getElem?_zip_eq_some] at hq
    simp only
    split
    · rename_i o' t' hk'
      have : g.name.expanded ≠ f.name.expanded := fun heq => hne (hok.attrs i q p g f o' t' o t hq.1 hf hk' hk heq)
      cases attrText o' t' w <;> simp [this]
    · rfl

theorem attrsNamed_map (n : EName) (l : List XAttr) :
    (attrsNamed n l).map (fun a => (a.name.expanded, a.value)) =
      (l.map fun a => (a.name.expanded, a.value)).filter fun a => a.1 == n := by
  unfold attrsNamed
  rw [List.filter_map]
  rfl

theorem attrValue_readable {env : Env} (hok : EnvOk env) {i : Nat} {vs : List Val} {p : Nat} {f : Field} {o : Bool} {t : TextTy} {v : Val}
    (hf : (env.strct i).fields[p]? = some f) (hv : vs[p]? = some v) (hk : f.kind = .attribute o t) (hr : AttrReadable f o t v)
    {attrs : List XAttr} (ha : attrs.map (fun a => (a.name.expanded, a.value)) = structAttrs (env.strct i).fields vs) :
    attrValue o t (f.default.or (attrAbsent o)) (attrsNamed f.name.expanded attrs) = some v := by
  have h := attrsNamed_map f.name.expanded attrs
  rw [ha, structAttrs_named hok hf hv hk] at h
  unfold AttrReadable at hr
  cases ht : attrText o t v with
  | none =>
    simp only [ht, Option.map_none, Option.toList_none, List.map_eq_nil_iff] at h hr
    rw [h]
    exact hr
  | some s =>
    simp only [ht, Option.map_some, Option.toList_some] at h hr
    obtain ⟨tv, h1, h2⟩ := hr
    cases hl : attrsNamed f.name.expanded attrs with
    | nil => rw [hl] at h; simp at h
    | cons a l =>
      rw [hl] at h
      simp only [List.map_cons, List.cons.injEq, Prod.mk.injEq, List.map_eq_nil_iff] at h
      obtain ⟨⟨-, h3⟩, rfl⟩ := h
      simp [attrValue, h3, h1, h2]

theorem flatTypes_nil {fields : List Field} {p : Nat} (h : ∀ (q : Nat) (f : Field) e, fields[q]? = some f → q < p → f.kind ≠ .flatten e) :
    flatTypes (fields.take p) = [] := by
  induction fields generalizing p with
  | nil => simp [flatTypes]
  | cons f fs ih =>
    cases p with
    | zero => simp [flatTypes]
    | succ p =>
      simp only [List.take_succ_cons, flatTypes]
      split
      · rename_i e hk
        exact absurd hk (h 0 f e (by simp) (by omega))
      · exact ih fun q g e hg hq => h (q + 1) g e (by simpa using hg) (by omega)

/-- The values of fields, one by one. -/
theorem fieldsValue_eq {env : Env} {all : List Field} {b : Body} (pre fs : List Field) (vs : List Val) (hlen : vs.length = fs.length)
    (h : ∀ (p : Nat) (f : Field) (v : Val), fs[p]? = some f → vs[p]? = some v →
      fieldValue env all b (flatTypes (pre ++ fs.take p)) f = some v) :
    fieldsValue env all b (flatTypes pre) fs = some vs := by
  induction fs generalizing pre vs with
  | nil => cases vs with
    | nil => rfl
    | cons _ _ => simp at hlen
  | cons f fs ih =>
    cases vs with
    | nil => simp at hlen
    | cons v vs =>
      have h0 := h 0 f v (by simp) (by simp)
      simp only [List.take_zero, List.append_nil] at h0
      have h1 := ih (pre ++ [f]) vs (by simpa using hlen) (by
        intro p g w hg hw
        have := h (p + 1) g w (by simpa using hg) (by simpa using hw)
        simpa using this)
      rw [flatTypes_append] at h1
      simp only [fieldsValue, h0, h1]

theorem structValue_paired {env : Env} (hok : EnvOk env) (hfl : FlattenOk env) {i : Nat} {vs : List Val} (hr : Readable env (.strct i) (.strct vs))
    {attrs : List XAttr} {ks : List Kid} {text : String}
    (ha : attrs.map (fun a => (a.name.expanded, a.value)) = structAttrs (env.strct i).fields vs)
    (h : Paired Matches (structItems env (env.strct i).fields vs) ks) :
    structValue env (env.strct i).fields { attrs, kids := ks, text } = some (.strct vs) := by
  cases hr with
  | strct len attrsOk card elems flats =>
    unfold structValue
    have hf := fieldsValue_eq (env := env) (all := (env.strct i).fields) (b := { attrs := attrs, kids := ks, text := text }) [] (env.strct i).fields vs len (by
      intro p f v hf hv
      simp only [List.nil_append]
      unfold fieldValue
      cases hk : f.kind with
      | element s =>
        simp only
        obtain ⟨hc, hab⟩ := card p f s v hf hv hk
        refine slotValue_paired (n := f.name.expanded) hc hab ?_
        have := h.filter (fun it => it.name == f.name.expanded) (fun k => k.name == f.name.expanded) (by
          intro a b hab; rw [hab.1])
        rw [structItems_named hok hfl hf hv hk] at this
        exact this
      | «attribute» o t =>
        simp only
        exact attrValue_readable hok hf hv hk (attrsOk p f v o t hf hv hk) ha
      | flatten e =>
        simp only
        rw [flatTypes_nil ?_]
        · simp only [past]
          refine enumValue_paired hok (flats p f e v hf hv hk) ?_
          have := h.filter (fun it => !declaredElem (env.strct i).fields it.name) (fun k => !declaredElem (env.strct i).fields k.name) (by
            intro a b hab; rw [hab.1])
          rw [structItems_strangers hfl hf hv hk] at this
          exact this
        · intro q g e' hg hq hk'
          have := hfl.one i q p g f e' e hg hf hk' hk
          omega
      | text t => exact absurd hk (hok.noText i f t (List.mem_of_getElem? hf)))
    simp only [flatTypes] at hf
    rw [hf]
    rfl

/-! ### Everything written is read back -/

def ItemReadable (env : Env) (it : Item) : Prop := ∀ ty v, it.value = some (ty, v) → Readable env ty v

theorem variantItems_readable {env : Env} {i : Nat} {v : Val} (h : Readable env (.enm i) v) : ∀ it ∈ variantItems (env.enm i) v, ItemReadable env it := by
  intro it hit
  cases h with
  | @unit _ j w hv hs =>
    simp only [variantItems, hv, hs] at hit
    split at hit
    · simp at hit
    · simp only [List.mem_singleton] at hit
      subst hit
      intro ty v h
      simp at h
  | @payload _ j w s p hv hs card ne items =>
    simp only [variantItems, hv, hs] at hit
    split at hit
    · simp at hit
    · simp only [fieldItems, List.mem_map] at hit
      obtain ⟨x, hx, rfl⟩ := hit
      intro ty v h
      cases h
      exact items x hx

theorem structItems_readable {env : Env} {i : Nat} {vs : List Val} (h : Readable env (.strct i) (.strct vs)) :
    ∀ it ∈ structItems env (env.strct i).fields vs, ItemReadable env it := by
  intro it hit
  cases h with
  | strct len attrsOk card elems flats =>
    simp only [structItems, List.mem_append, List.mem_flatMap] at hit
    rcases hit with ⟨x, hx, hit⟩ | ⟨x, hx, hit⟩
    all_goals
      obtain ⟨p, hp⟩ := List.mem_iff_getElem?.mp hx
      rw [List.getElem?_zip_eq_some] at hp
    · split at hit
      · rename_i s hk
        simp only [fieldItems, List.mem_map] at hit
        obtain ⟨w, hw, rfl⟩ := hit
        intro ty v h
        cases h
        exact elems p _ s _ w hp.1 hp.2 hk hw
      · simp at hit
    · split at hit
      · rename_i e hk
        exact variantItems_readable (flats p _ e _ hp.1 hp.2 hk) it hit
      · simp at hit

/-! ### And only readable values are read back -/

/-- A child element, read as the type it was written as, has the value it was written from if and only if that is readable. -/
def Reads (env : Env) (it : Item) (k : Kid) : Prop :=
  k.name = it.name ∧ ∀ ty v, it.value = some (ty, v) → (k.as ty = some v ↔ Readable env ty v)

def ItemTyped (env : Env) (it : Item) : Prop := ∀ ty v, it.value = some (ty, v) → HasTy env ty v

theorem paired_matches {env : Env} {l : List Item} {ks : List Kid} (h : Paired (Reads env) l ks) (hr : ∀ it ∈ l, ItemReadable env it) :
    Paired Matches l ks := by
  induction h with
  | nil => exact .nil
  | cons h t ih =>
    exact .cons ⟨h.1, fun ty v hv => (h.2 ty v hv).mpr (hr _ List.mem_cons_self ty v hv)⟩ (ih fun it hit => hr it (by simp [hit]))

theorem paired_names' {env : Env} {l : List Item} {ks : List Kid} {n : EName} (h : Paired (Reads env) l ks) (hl : ∀ it ∈ l, it.name = n) :
    ∀ k ∈ ks, Kid.name k = n := by
  induction h with
  | nil => simp
  | cons h t ih =>
    intro k hk
    simp only [List.mem_cons] at hk
    rcases hk with rfl | hk
    · rw [h.1]; exact hl _ List.mem_cons_self
    · exact ih (fun it hit => hl it (by simp [hit])) k hk

theorem allAs_readable {env : Env} {n : EName} {ty : Ty} {l l' : List Val} {ks : List Kid}
    (h : Paired (Reads env) (l.map fun x => { name := n, value := some (ty, x) }) ks) (ha : allAs ty ks = some l') (hl : l' = l) :
    ∀ x ∈ l, Readable env ty x := by
  induction l generalizing ks l' with
  | nil => simp
  | cons x l ih =>
    cases h with
    | @cons _ k _ ks h t =>
      simp only [allAs] at ha
      split at ha
      · rename_i v vs h1 h2
        simp only [Option.some.injEq] at ha
        subst ha
        simp only [List.cons.injEq] at hl
        obtain ⟨rfl, rfl⟩ := hl
        intro y hy
        simp only [List.mem_cons] at hy
        rcases hy with rfl | hy
        · exact (h.2 _ _ rfl).mp h1
        · exact ih t h2 rfl y hy
      · simp at ha

theorem slotValue_readable {env : Env} {s : Slot} {n : EName} {v : Val} {ks : List Kid} {absent : Option Val} (hc : CardOk s.card v)
    (h : Paired (Reads env) (fieldItems s n v) ks) (hv : slotValue s absent ks = some v) :
    (valuesOf s.card v = [] → absent = some v) ∧ ∀ x ∈ valuesOf s.card v, Readable env s.ty x := by
  obtain ⟨card, ty⟩ := s
  unfold fieldItems at h
  cases card with
  | one =>
    simp only [valuesOf, List.map_cons, List.map_nil] at h
    cases h with
    | cons h' t =>
      cases t
      simp only [slotValue, List.isEmpty_nil, if_true] at hv
      simp only [valuesOf, List.mem_singleton, forall_eq, reduceCtorEq, false_implies, true_and]
      exact (h'.2 _ _ rfl).mp hv
  | opt =>
    obtain ⟨o, rfl⟩ := hc
    cases o with
    | none =>
      simp only [valuesOf, List.map_nil] at h
      cases h
      simpa [valuesOf, slotValue] using hv
    | some x =>
      simp only [valuesOf, List.map_cons, List.map_nil] at h
      cases h with
      | cons h' t =>
        cases t
        simp only [slotValue, List.isEmpty_nil, if_true, Option.map_eq_some_iff, Val.opt.injEq, Option.some.injEq, exists_eq_right] at hv
        simp only [valuesOf, List.mem_singleton, forall_eq, reduceCtorEq, false_implies, true_and]
        exact (h'.2 _ _ rfl).mp hv
  | many =>
    obtain ⟨l, rfl⟩ := hc
    simp only [valuesOf] at h ⊢
    cases ks with
    | nil =>
      cases l with
      | nil => simpa [slotValue] using hv
      | cons _ _ => cases h
    | cons k ks =>
      simp only [slotValue, Option.map_eq_some_iff] at hv
      obtain ⟨l', h1, h2⟩ := hv
      simp only [Val.vec.injEq] at h2
      refine ⟨?_, allAs_readable h h1 h2⟩
      rintro rfl
      cases h

theorem enumValue_readable {env : Env} (hok : EnvOk env) {i : Nat} {v : Val} {ks : List Kid} (ht : HasTy env (.enm i) v)
    (h : Paired (Reads env) (variantItems (env.enm i) v) ks) (hv : enumValue (env.enm i) ks = some v) : Readable env (.enm i) v := by
  cases ht with
  | unit hw hs => exact .unit hw hs
  | @payload _ j w s p hw hs card items =>
    have hsk := hok.noSkip i w (List.mem_of_getElem? hw)
    simp only [variantItems, hw, hs, hsk, Bool.false_eq_true, if_false] at h
    have hn := paired_names' (n := w.name.expanded) h (by
      intro it hit
      simp only [fieldItems, List.mem_map] at hit
      obtain ⟨x, _, rfl⟩ := hit
      rfl)
    have hch := choices_of_named (variantOf_eq hok hw) hn
    cases ks with
    | nil => simp [enumValue, choices] at hv
    | cons k ks =>
      have hval : slotValue s none (k :: ks) = some p := by
        unfold enumValue at hv
        simp only [List.map_cons] at hch
        simp [hch, hw, hs, List.all_eq_true] at hv
        rw [show ((Prod.snd : Nat × Kid → Kid) ∘ fun k => (j, k)) = id from rfl, List.map_id] at hv
        exact hv
      obtain ⟨h1, h2⟩ := slotValue_readable card h hval
      exact .payload hw hs card (fun h => by simpa using h1 h) h2

theorem fieldsValue_at {env : Env} {all : List Field} {b : Body} (pre fs : List Field) (vs : List Val)
    (h : fieldsValue env all b (flatTypes pre) fs = some vs) : vs.length = fs.length ∧
    ∀ (p : Nat) (f : Field) (v : Val), fs[p]? = some f → vs[p]? = some v →
      fieldValue env all b (flatTypes (pre ++ fs.take p)) f = some v := by
  induction fs generalizing pre vs with
  | nil => simp only [fieldsValue, Option.some.injEq] at h; subst h; simp
  | cons f fs ih =>
    simp only [fieldsValue] at h
    split at h
    · rename_i v vs' h1 h2
      rw [← flatTypes_append] at h2
      obtain ⟨k1, k2⟩ := ih (pre ++ [f]) vs' h2
      simp only [Option.some.injEq] at h
      subst h
      refine ⟨by simp [k1], ?_⟩
      intro p g w hg hw
      cases p with
      | zero =>
        simp only [List.getElem?_cons_zero, Option.some.injEq] at hg hw
        subst hg; subst hw
        simpa using h1
      | succ p =>
        have := k2 p g w (by simpa using hg) (by simpa using hw)
        simpa using this
    · simp at h

theorem attrReadable_of {env : Env} (hok : EnvOk env) {i : Nat} {vs : List Val} {p : Nat} {f : Field} {o : Bool} {t : TextTy} {v : Val}
    (hf : (env.strct i).fields[p]? = some f) (hv : vs[p]? = some v) (hk : f.kind = .attribute o t)
    {attrs : List XAttr} (ha : attrs.map (fun a => (a.name.expanded, a.value)) = structAttrs (env.strct i).fields vs)
    (h : attrValue o t (f.default.or (attrAbsent o)) (attrsNamed f.name.expanded attrs) = some v) : AttrReadable f o t v := by
  have hm := attrsNamed_map f.name.expanded attrs
  rw [ha, structAttrs_named hok hf hv hk] at hm
  unfold AttrReadable
  cases ht : attrText o t v with
  | none =>
    simp only [ht, Option.map_none, Option.toList_none, List.map_eq_nil_iff] at hm
    rw [hm] at h
    exact h
  | some s =>
    simp only [ht, Option.map_some, Option.toList_some] at hm
    cases hl : attrsNamed f.name.expanded attrs with
    | nil => rw [hl] at hm; simp at hm
    | cons a l =>
      rw [hl] at hm h
      simp only [List.map_cons, List.cons.injEq, Prod.mk.injEq, List.map_eq_nil_iff] at hm
      obtain ⟨⟨-, h3⟩, rfl⟩ := hm
      simp only [attrValue, h3] at h
      split at h
      · rename_i tv htv
        simp only [Option.some.injEq] at h
        exact ⟨tv, htv, h.symm⟩
      · simp at h

theorem structValue_readable {env : Env} (hok : EnvOk env) (hfl : FlattenOk env) {i : Nat} {vs : List Val} (ht : HasTy env (.strct i) (.strct vs))
    {attrs : List XAttr} {ks : List Kid} {text : String}
    (ha : attrs.map (fun a => (a.name.expanded, a.value)) = structAttrs (env.strct i).fields vs)
    (h : Paired (Reads env) (structItems env (env.strct i).fields vs) ks)
    (hv : structValue env (env.strct i).fields { attrs, kids := ks, text } = some (.strct vs)) : Readable env (.strct i) (.strct vs) := by
  cases ht with
  | strct len shape elems flats =>
    simp only [structValue, Option.map_eq_some_iff, Val.strct.injEq, exists_eq_right] at hv
    obtain ⟨-, hget⟩ := fieldsValue_at [] _ _ hv
    simp only [List.nil_append] at hget
    have hslot : ∀ (p : Nat) (f : Field) (s : Slot) (v : Val), (env.strct i).fields[p]? = some f → vs[p]? = some v → f.kind = .element s →
        CardOk s.card v ∧ (valuesOf s.card v = [] → f.default.or (slotAbsent s) = some v) ∧ ∀ w ∈ valuesOf s.card v, Readable env s.ty w := by
      intro p f s v hf hv hk
      have hc : CardOk s.card v := by
        have := shape p f v hf hv
        simpa only [Shape, hk] using this
      have hfv := hget p f v hf hv
      simp only [fieldValue, hk] at hfv
      have := h.filter (fun it => it.name == f.name.expanded) (fun k => k.name == f.name.expanded) (by
          intro a b hab; rw [hab.1])
      rw [structItems_named hok hfl hf hv hk] at this
      exact ⟨hc, slotValue_readable hc this hfv⟩
    refine .strct len ?_ ?_ ?_ ?_
    · intro p f v o t hf hv hk
      have hfv := hget p f v hf hv
      simp only [fieldValue, hk] at hfv
      exact attrReadable_of hok hf hv hk ha hfv
    · intro p f s v hf hv hk
      exact ⟨(hslot p f s v hf hv hk).1, (hslot p f s v hf hv hk).2.1⟩
    · intro p f s v w hf hv hk hw
      exact (hslot p f s v hf hv hk).2.2 w hw
    · intro p f e v hf hv hk
      have hfv := hget p f v hf hv
      simp only [fieldValue, hk] at hfv
      rw [flatTypes_nil ?_] at hfv
      · simp only [past] at hfv
        have := h.filter (fun it => !declaredElem (env.strct i).fields it.name) (fun k => !declaredElem (env.strct i).fields k.name) (by
            intro a b hab; rw [hab.1])
        rw [structItems_strangers hfl hf hv hk] at this
        exact enumValue_readable hok (flats p f e v hf hv hk) this hfv
      · intro q g e' hg hq hk'
        have := hfl.one i q p g f e' e hg hf hk' hk
        omega

theorem variantItems_typed {env : Env} {i : Nat} {v : Val} (h : HasTy env (.enm i) v) : ∀ it ∈ variantItems (env.enm i) v, ItemTyped env it := by
  intro it hit
  cases h with
  | @unit _ j w hv hs =>
    simp only [variantItems, hv, hs] at hit
    split at hit
    · simp at hit
    · simp only [List.mem_singleton] at hit
      subst hit
      intro ty v h
      simp at h
  | @payload _ j w s p hv hs card items =>
    simp only [variantItems, hv, hs] at hit
    split at hit
    · simp at hit
    · simp only [fieldItems, List.mem_map] at hit
      obtain ⟨x, hx, rfl⟩ := hit
      intro ty v h
      cases h
      exact items x hx

theorem structItems_typed {env : Env} {i : Nat} {vs : List Val} (h : HasTy env (.strct i) (.strct vs)) :
    ∀ it ∈ structItems env (env.strct i).fields vs, ItemTyped env it := by
  intro it hit
  cases h with
  | strct len shape elems flats =>
    simp only [structItems, List.mem_append, List.mem_flatMap] at hit
    rcases hit with ⟨x, hx, hit⟩ | ⟨x, hx, hit⟩
    all_goals
      obtain ⟨p, hp⟩ := List.mem_iff_getElem?.mp hx
      rw [List.getElem?_zip_eq_some] at hp
    · split at hit
      · rename_i s hk
        simp only [fieldItems, List.mem_map] at hit
        obtain ⟨w, hw, rfl⟩ := hit
        intro ty v h
        cases h
        exact elems p _ s _ w hp.1 hp.2 hk hw
      · simp at hit
    · split at hit
      · rename_i e hk
        exact variantItems_typed (flats p _ e _ hp.1 hp.2 hk) it hit
      · simp at hit

theorem kids_reads {env : Env} (hok : EnvOk env) (hfl : FlattenOk env) {l : List Item} {f : EForest} (h : Shows env l f) :
    ∀ (F : Forest), Denotes f F → (∀ it ∈ l, ItemTyped env it) → Paired (Reads env) l (kids env F) := by
  induction h with
  | nil =>
    intro F hF _
    rw [(denotes_nil (env := env) hF rfl).1]
    exact .nil
  | unit rest ih =>
    intro F hF hr
    obtain ⟨q, attrs, pos, c', rest', h1, h2, h3, h4, h5, -⟩ := denotes_elem (env := env) hF _ _ _ _ rfl
    rw [h5]
    exact .cons ⟨h1, by intro ty v h; simp at h⟩ (ih rest' h4 fun it hit => hr it (by simp [hit]))
  | @text n t tv s l f h rest ih =>
    intro F hF hr
    obtain ⟨q, attrs, pos, c', rest', h1, h2, h3, h4, h5, -⟩ := denotes_elem (env := env) hF _ _ _ _ rfl
    rw [h5]
    refine .cons ⟨h1, ?_⟩ (ih rest' h4 fun it hit => hr it (by simp [hit]))
    intro ty v hv
    simp only [Option.some.injEq, Prod.mk.injEq] at hv
    obtain ⟨rfl, rfl⟩ := hv
    obtain ⟨k1, k2⟩ := denotes_text (env := env) h3 s rfl
    simp only [bodyValue, k1, k2]
    constructor
    · intro hv
      split at hv
      · rename_i v' hp
        simp only [Option.some.injEq, Val.text.injEq] at hv
        subst hv
        exact .text h hp
      · simp at hv
    · intro hr
      cases hr with
      | text hs hp =>
        rw [h] at hs
        cases hs
        simp only [hp]
  | @strct n i vs g l f c rest ihc ih =>
    intro F hF hr
    obtain ⟨q, attrs, pos, c', rest', h1, h2, h3, h4, h5, -⟩ := denotes_elem (env := env) hF _ _ _ _ rfl
    rw [h5]
    refine .cons ⟨h1, ?_⟩ (ih rest' h4 fun it hit => hr it (by simp [hit]))
    intro ty v hv
    simp only [Option.some.injEq, Prod.mk.injEq] at hv
    obtain ⟨rfl, rfl⟩ := hv
    have hty := hr _ List.mem_cons_self _ _ rfl
    have hp := ihc c' h3 (structItems_typed hty)
    simp only [bodyValue]
    exact ⟨structValue_readable hok hfl hty h2 hp, fun hread =>
      structValue_paired hok hfl hread h2 (paired_matches hp (structItems_readable hread))⟩
  | @enm n i j p g l f c rest ihc ih =>
    intro F hF hr
    obtain ⟨q, attrs, pos, c', rest', h1, h2, h3, h4, h5, -⟩ := denotes_elem (env := env) hF _ _ _ _ rfl
    rw [h5]
    refine .cons ⟨h1, ?_⟩ (ih rest' h4 fun it hit => hr it (by simp [hit]))
    intro ty v hv
    simp only [Option.some.injEq, Prod.mk.injEq] at hv
    obtain ⟨rfl, rfl⟩ := hv
    have hty := hr _ List.mem_cons_self _ _ rfl
    have hp := ihc c' h3 (variantItems_typed hty)
    simp only [bodyValue]
    exact ⟨enumValue_readable hok hty hp, fun hread => enumValue_paired hok hread (paired_matches hp (variantItems_readable hread))⟩

/-- A document that represents a value has that value if and only if it is readable. -/
theorem root_value_iff {env : Env} (hok : EnvOk env) (hfl : FlattenOk env) {name : EName} {ty : Ty} {v : Val} {as : List (EName × String)} {g : EForest}
    (h : Represents env name ty v as g) (ht : HasTy env ty v) (x : Elem)
    (ha : x.attrs.map (fun a => (a.name.expanded, a.value)) = as) (hc : Denotes g x.children) :
    bodyValue env (x.body env) ty = some v ↔ Readable env ty v := by
  have hd : Denotes (.elem x.name.expanded as g .nil) (.elem x.name x.attrs x.ns x.pos x.children x.endPos .nil) :=
    .elem rfl ha hc .nil
  have hs : Shows env [{ name := x.name.expanded, value := some (ty, v) }] (.elem x.name.expanded as g .nil) := by
    cases h with
    | text h r => exact .text h r
    | strct h r => exact .strct h r
    | enm h r => exact .enm h r
  have := kids_reads hok hfl hs _ hd (by
    intro it hit
    simp only [List.mem_singleton] at hit
    subst hit
    intro ty' v' h
    cases h
    exact ht)
  cases this with
  | cons h t => exact h.2 _ _ rfl

/-! ### What is read does not depend on how it is reported -/

/-- One way to report what was written. -/
def EForest.parsed : EForest → Forest
  | .nil => .nil
  | .elem n as c rest =>
    .elem { loc := n.loc, ns := some n.ns, pfx := none } (as.map fun a => { name := { loc := a.1.loc, ns := some a.1.ns, pfx := none }, value := a.2 })
      [] ⟨0, 0⟩ (EForest.parsed c) ⟨0, 0⟩ (EForest.parsed rest)
  | .chars s rest => if Blank s then EForest.parsed rest else .chars s false ⟨0, 0⟩ (EForest.parsed rest)

theorem attrs_parsed (as : List (EName × String)) :
    (as.map fun a => ({ name := { loc := a.1.loc, ns := some a.1.ns, pfx := none }, value := a.2 } : XAttr)).map
      (fun a => (a.name.expanded, a.value)) = as := by
  rw [List.map_map]
  exact List.map_id' as

theorem denotes_parsed (f : EForest) : Denotes f (EForest.parsed f) := by
  induction f with
  | nil => exact .nil
  | elem n as c rest ihc ih => exact .elem rfl (attrs_parsed as) ihc ih
  | chars s rest ih =>
    unfold EForest.parsed
    split
    · rename_i h; exact .blank h ih
    · rename_i h; exact .chars h ih

theorem plain_of_pairs {a b : List XAttr} (h : a.map (fun a => (a.name.expanded, a.value)) = b.map fun a => (a.name.expanded, a.value)) :
    a.map XAttr.plain = b.map XAttr.plain := by
  have hp : (XAttr.plain : XAttr → XAttr) =
      (fun x : EName × String => { name := { loc := x.1.loc, ns := some x.1.ns, pfx := none }, value := x.2 }) ∘ fun a => (a.name.expanded, a.value) := rfl
  rw [hp, ← List.map_map, ← List.map_map, h]

theorem denotes_canon {env : Env} {f : EForest} {F : Forest} (h : Denotes f F) :
    (kids env F).map Kid.canon = (kids env (EForest.parsed f)).map Kid.canon ∧ F.text = (EForest.parsed f).text := by
  induction h with
  | nil => exact ⟨rfl, rfl⟩
  | @elem n as c rest q attrs ns pos endPos c' rest' hn ha hc hr ihc ih =>
    refine ⟨?_, ih.2⟩
    simp only [EForest.parsed, kids, List.map_cons, ih.1]
    congr 1
    unfold Kid.canon
    congr 1
    · simp only [plainName, hn]
      rfl
    · funext ty
      apply bodyValue_congr
      simp only [Body.canon, ihc.1, ihc.2]
      congr 1
      exact plain_of_pairs (by rw [ha, attrs_parsed])
  | chars hs hr ih => simpa only [EForest.parsed, if_neg hs, kids, Forest.text, ih.2, and_true] using ih.1
  | blank hs hr ih => simpa only [EForest.parsed, if_pos hs] using ih
  | misc h ih => simpa only [kids, Forest.text] using ih

theorem readsBack_value {env : Env} {as : List (EName × String)} {f : EForest} {x y : Elem}
    (ha : x.attrs.map (fun a => (a.name.expanded, a.value)) = as) (hf : Denotes f x.children)
    (ha' : y.attrs.map (fun a => (a.name.expanded, a.value)) = as) (hf' : Denotes f y.children) (ty : Ty) :
    bodyValue env (x.body env) ty = bodyValue env (y.body env) ty := by
  apply bodyValue_congr
  simp only [Elem.body, Body.canon, (denotes_canon (env := env) hf).1, (denotes_canon (env := env) hf).2, (denotes_canon (env := env) hf').1,
    (denotes_canon (env := env) hf').2]
  congr 1
  exact plain_of_pairs (by rw [ha, ha'])

/-! ### The content is determined by the events -/

theorem events_inj (f g : EForest) (r r' : List EEvent) (h : f.events ++ .stop :: r = g.events ++ .stop :: r') : f = g ∧ r = r' := by
  induction f generalizing g r r' with
  | nil =>
    cases g with
    | nil => simpa [EForest.events] using h
    | elem => simp [EForest.events] at h
    | chars => simp [EForest.events] at h
  | elem n as c rest ihc ih =>
    cases g with
    | nil => simp [EForest.events] at h
    | elem n' as' c' rest' =>
      simp only [EForest.events, List.cons_append, List.append_assoc, List.cons.injEq, EEvent.start.injEq] at h
      obtain ⟨⟨rfl, rfl⟩, h⟩ := h
      obtain ⟨rfl, h2⟩ := ihc _ _ _ h
      obtain ⟨rfl, rfl⟩ := ih _ _ _ h2
      exact ⟨rfl, rfl⟩
    | chars => simp [EForest.events] at h
  | chars s rest ih =>
    cases g with
    | nil => simp [EForest.events] at h
    | elem => simp [EForest.events] at h
    | chars s' rest' =>
      simp only [EForest.events, List.cons_append, List.cons.injEq, EEvent.chars.injEq] at h
      obtain ⟨rfl, h⟩ := h
      obtain ⟨rfl, rfl⟩ := ih _ _ _ h
      exact ⟨rfl, rfl⟩

/-! ### Structs with several flattened fields -/

theorem kids_names {env : Env} {l : List Item} {f : EForest} (h : Shows env l f) :
    ∀ (F : Forest), Denotes f F → (kids env F).map Kid.name = l.map Item.name := by
  have step : ∀ {n : EName} {as : List (EName × String)} {c f : EForest} {l : List Item} {v : Option (Ty × Val)},
      (∀ (F : Forest), Denotes f F → (kids env F).map Kid.name = l.map Item.name) →
      ∀ (F : Forest), Denotes (.elem n as c f) F → (kids env F).map Kid.name = (({ name := n, value := v } : Item) :: l).map Item.name := by
    intro n as c f l v ih F hF
    obtain ⟨q, attrs, pos, c', rest', h1, h2, h3, h4, h5, -⟩ := denotes_elem (env := env) hF _ _ _ _ rfl
    rw [h5, List.map_cons, List.map_cons, ih rest' h4]
    congr 1
  induction h with
  | nil => intro F hF; rw [(denotes_nil (env := env) hF rfl).1]; rfl
  | unit rest ih => exact step ih
  | text h rest ih => exact step ih
  | strct c rest ihc ih => exact step ih
  | enm c rest ihc ih => exact step ih

theorem past_nil (env : Env) (es : List Nat) : past env es [] = [] := by
  induction es with
  | nil => rfl
  | cons e es ih => simp [past, ih]

theorem slotValue_values {s : Slot} {k : Kid} {ks : List Kid} {v : Val} (h : slotValue s none (k :: ks) = some v) : valuesOf s.card v ≠ [] := by
  obtain ⟨card, ty⟩ := s
  cases card with
  | one => simp [valuesOf]
  | opt =>
    simp only [slotValue] at h
    split at h
    · obtain ⟨x, -, rfl⟩ := Option.map_eq_some_iff.mp h
      simp [valuesOf]
    · simp at h
  | many =>
    simp only [slotValue, Option.map_eq_some_iff] at h
    obtain ⟨l, h1, rfl⟩ := h
    simp only [allAs] at h1
    split at h1
    · simp only [Option.some.injEq] at h1
      subst h1
      simp [valuesOf]
    · simp at h1

theorem enumValue_items {env : Env} (hok : EnvOk env) {i : Nat} {ks : List Kid} {v : Val} (h : enumValue (env.enm i) ks = some v) :
    variantItems (env.enm i) v ≠ [] := by
  unfold enumValue at h
  split at h
  · simp at h
  · rename_i j k rest _
    split at h
    · split at h
      · simp at h
      · rename_i w hw
        have hsk := hok.noSkip i w (List.mem_of_getElem? hw)
        split at h
        · rename_i hs
          simp only [Option.some.injEq] at h
          subst h
          simp [variantItems, hw, hs, hsk]
        · rename_i s hs
          obtain ⟨p, h1, rfl⟩ := Option.map_eq_some_iff.mp h
          have := slotValue_values h1
          simp [variantItems, hw, hs, hsk, fieldItems, this]
    · simp at h

/-- The first of the other children belongs to the first flattened field. -/
theorem strangers_first {env : Env} {i : Nat} {vs : List Val} {p : Nat} {f : Field} {e : Nat} {v : Val} {ks : List Kid}
    (hf : (env.strct i).fields[p]? = some f) (hv : vs[p]? = some v) (hk : f.kind = .flatten e)
    (hfirst : ∀ (q : Nat) (g : Field) e', (env.strct i).fields[q]? = some g → q < p → g.kind ≠ .flatten e')
    (hapart : ∀ it ∈ variantItems (env.enm e) v, declaredElem (env.strct i).fields it.name = false)
    (hne : variantItems (env.enm e) v ≠ [])
    (h : ks.map Kid.name = (structItems env (env.strct i).fields vs).map Item.name) :
    ∃ k l, strangers (env.strct i).fields ks = k :: l ∧ ∃ it ∈ variantItems (env.enm e) v, k.name = it.name := by
  have hs : (strangers (env.strct i).fields ks).map Kid.name =
      ((structItems env (env.strct i).fields vs).filter fun it => !declaredElem (env.strct i).fields it.name).map Item.name := by
    have : ∀ (ks : List Kid) (l : List Item), ks.map Kid.name = l.map Item.name →
        (strangers (env.strct i).fields ks).map Kid.name = (l.filter fun it => !declaredElem (env.strct i).fields it.name).map Item.name := by
      intro ks
      induction ks with
      | nil =>
        intro l hl
        cases l with
        | nil => rfl
        | cons _ _ => simp at hl
      | cons k ks ih =>
        intro l hl
        cases l with
        | nil => simp at hl
        | cons it l =>
          simp only [List.map_cons, List.cons.injEq] at hl
          have := ih l hl.2
          unfold strangers at this ⊢
          simp only [List.filter_cons, hl.1]
          split
          · simp [hl.1, this]
          · exact this
    exact this ks _ h
  have hitems : ∃ l', (structItems env (env.strct i).fields vs).filter (fun it => !declaredElem (env.strct i).fields it.name) =
      variantItems (env.enm e) v ++ l' := by
    have hz : (env.strct i).fields.zip vs = ((env.strct i).fields.zip vs).take p ++ (f, v) :: ((env.strct i).fields.zip vs).drop (p + 1) := by
      have : ((env.strct i).fields.zip vs)[p]? = some (f, v) := by rw [List.getElem?_zip_eq_some]; exact ⟨hf, hv⟩
      obtain ⟨hlt, hge⟩ := List.getElem?_eq_some_iff.mp this
      rw [← hge, ← List.drop_eq_getElem_cons hlt, List.take_append_drop]
    unfold structItems
    rw [List.filter_append]
    rw [show ∀ (A B : List Item), A = [] → A ++ B = B from fun A B h => by simp [h]]
    · conv =>
        congr
        intro l'
        lhs
        rw [hz]
      rw [List.flatMap_append, List.flatMap_cons, List.filter_append, List.filter_append]
      refine ex_append ?_ ?_
      rotate_left
      · simp only [hk]
        rw [List.filter_eq_self]
        intro it hit
        simp [hapart it hit]
      · rw [List.filter_eq_nil_iff]
        intro it hit
        simp only [List.mem_flatMap] at hit
        obtain ⟨x, hx, hit⟩ := hit
        obtain ⟨q, hq⟩ := List.mem_iff_getElem?.mp hx
        rw [List.getElem?_take] at hq
        split at hq
        · rename_i hlt
          rw [List.getElem?_zip_eq_some] at hq
          split at hit
          · rename_i e' hk'
            exact absurd hk' (hfirst q _ e' hq.1 hlt)
          · simp at hit
        · simp at hq
    · rw [filter_flatMap', List.flatMap_eq_nil_iff]
      intro x hx
      have hx1 := (List.of_mem_zip hx).1
      split
      · rename_i s hs
        rw [List.filter_eq_nil_iff]
        intro it hit
        simp only [fieldItems, List.mem_map] at hit
        obtain ⟨y, _, rfl⟩ := hit
        have : declaredElem (env.strct i).fields x.1.name.expanded = true := declaredElem_iff.mpr ⟨x.1, hx1, s, hs, rfl⟩
        simp [this]
      · rfl
  obtain ⟨l', hl'⟩ := hitems
  rw [hl'] at hs
  cases hit : variantItems (env.enm e) v with
  | nil => exact absurd hit hne
  | cons it l =>
    rw [hit] at hs
    cases hst : strangers (env.strct i).fields ks with
    | nil => rw [hst] at hs; simp at hs
    | cons k m =>
      rw [hst] at hs
      simp only [List.map_cons, List.cons_append, List.cons.injEq] at hs
      exact ⟨k, m, rfl, it, List.mem_cons_self, hs.1⟩

theorem two_flattens {env : Env} (hok : EnvOk env) {i : Nat} {vs : List Val} {p q : Nat} {f g : Field} {e e' : Nat} {v w : Val}
    (hf : (env.strct i).fields[p]? = some f) (hv : vs[p]? = some v) (hk : f.kind = .flatten e)
    (hg : (env.strct i).fields[q]? = some g) (hw : vs[q]? = some w) (hk' : g.kind = .flatten e') (hpq : p < q)
    (hfirst : ∀ (q : Nat) (g : Field) e', (env.strct i).fields[q]? = some g → q < p → g.kind ≠ .flatten e')
    (hapart : ∀ it ∈ variantItems (env.enm e) v, declaredElem (env.strct i).fields it.name = false) {b : Body}
    (h : b.kids.map Kid.name = (structItems env (env.strct i).fields vs).map Item.name) :
    structValue env (env.strct i).fields b ≠ some (.strct vs) := by
  intro hval
  simp only [structValue, Option.map_eq_some_iff, Val.strct.injEq, exists_eq_right] at hval
  obtain ⟨-, hget⟩ := fieldsValue_at [] _ _ hval
  simp only [List.nil_append] at hget
  have h1 := hget p f v hf hv
  have h2 := hget q g w hg hw
  simp only [fieldValue, hk] at h1
  simp only [fieldValue, hk'] at h2
  obtain ⟨k, l, hs, it, hit, hn⟩ := strangers_first hf hv hk hfirst hapart (enumValue_items hok h1) h
  have hvar : ∃ j, variantOf (env.enm e) k.name = some j := by
    obtain ⟨x, hx, hxn⟩ := variantItems_names hit
    obtain ⟨j, hj⟩ := List.mem_iff_getElem?.mp hx
    exact ⟨j, by rw [hn, hxn]; exact variantOf_eq hok hj⟩
  obtain ⟨j, hj⟩ := hvar
  have htake : flatTypes ((env.strct i).fields.take q) = e :: flatTypes (((env.strct i).fields.take q).drop (p + 1)) := by
    have hsplit : (env.strct i).fields.take q = (env.strct i).fields.take p ++ f :: ((env.strct i).fields.take q).drop (p + 1) := by
      have hp' : ((env.strct i).fields.take q)[p]? = some f := by rw [List.getElem?_take]; simp [hpq, hf]
      obtain ⟨hlt, hge⟩ := List.getElem?_eq_some_iff.mp hp'
      rw [← hge]
      have := List.take_append_drop p ((env.strct i).fields.take q)
      rw [List.take_take, Nat.min_eq_left (by omega)] at this
      rw [← List.drop_eq_getElem_cons hlt]
      exact this.symm
    rw [hsplit, flatTypes_append, flatTypes_nil hfirst]
    simp only [List.nil_append, flatTypes, hk]
    rw [← hsplit]
  rw [htake, hs] at h2
  simp only [past, List.takeWhile_cons, hj, Option.isNone_some, Bool.false_eq_true, if_false, past_nil] at h2
  simp [enumValue, choices] at h2

end SX
