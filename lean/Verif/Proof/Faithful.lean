import Verif.Spec.Faithful
import Verif.Proof.RoundTrip

/-
Reading back what was written, whatever the types: values are read back exactly if they are `Faithful`.
-/
namespace SX.Faith
open Spec

/-- A child element, read as the type it was written as, has the value it was written from if and only if that is faithful. -/
def Reads (env : Env) (it : Item) (k : Kid) : Prop :=
  k.name = it.name ∧ ∀ ty v, it.value = some (ty, v) → (k.as ty = some v ↔ Faithful env ty v)

def ItemFaithful (env : Env) (it : Item) : Prop := ∀ ty v, it.value = some (ty, v) → Faithful env ty v

/-- The child elements of the flattened fields. -/
def flatItems (env : Env) (fields : List Field) (vs : List Val) : List Item :=
  (fields.zip vs).flatMap fun x =>
    match x.1.kind with
    | .flatten e => variantItems (env.enm e) x.2
    | _ => []

theorem structItems_split {env : Env} (hok : EnvOk env) {i : Nat} {vs : List Val} {p : Nat} {f : Field} {s : Slot} {v : Val}
    (hf : (env.strct i).fields[p]? = some f) (hv : vs[p]? = some v) (hk : f.kind = .element s) :
    (structItems env (env.strct i).fields vs).filter (fun it => it.name == f.name.expanded) =
      fieldItems s f.name.expanded v ++ (flatItems env (env.strct i).fields vs).filter fun it => it.name == f.name.expanded := by
  have hz : ((env.strct i).fields.zip vs)[p]? = some (f, v) := by
    rw [List.getElem?_zip_eq_some]; exact ⟨hf, hv⟩
  unfold structItems flatItems
  rw [List.filter_append]
  congr 1
  rw [filter_flatMap', flatMap_single _ _ p (f, v) hz ?_]
  · simp only [hk, filter_fieldItems, if_true]
  · rintro q ⟨g, w⟩ hq hne
    rw [List.getElem?_zip_eq_some] at hq
    simp only
    split
    · rename_i s' hk'
      rw [filter_fieldItems, if_neg]
      intro heq
      exact hne (hok.elems i q p g f s' s hq.1 hf hk' hk heq)
    · rfl

theorem structItems_strangers' {env : Env} {i : Nat} {vs : List Val} :
    (structItems env (env.strct i).fields vs).filter (fun it => !declaredElem (env.strct i).fields it.name) =
      (flatItems env (env.strct i).fields vs).filter (fun it => !declaredElem (env.strct i).fields it.name) := by
  unfold structItems flatItems
  rw [List.filter_append]
  refine nil_append_of ?_ rfl
  rw [filter_flatMap', List.flatMap_eq_nil_iff]
  intro x hx
  have hx1 := (List.of_mem_zip hx).1
  split
  · rename_i s hs
    rw [List.filter_eq_nil_iff]
    intro it hit
    simp only [fieldItems, List.mem_map] at hit
    obtain ⟨y, _, rfl⟩ := hit
    have : declaredElem (env.strct i).fields x.1.name.expanded = true := declaredElem_iff.mpr ⟨x.1, hx1, s, hs, rfl⟩
    simp [this]
  · rfl

theorem flatItems_single {env : Env} {i : Nat} {vs : List Val} {p : Nat} {f : Field} {e : Nat} {v : Val}
    (hone : ∀ (p q : Nat) (f g : Field) e e', (env.strct i).fields[p]? = some f → (env.strct i).fields[q]? = some g →
      f.kind = .flatten e → g.kind = .flatten e' → p = q)
    (hf : (env.strct i).fields[p]? = some f) (hv : vs[p]? = some v) (hk : f.kind = .flatten e) :
    flatItems env (env.strct i).fields vs = variantItems (env.enm e) v := by
  have hz : ((env.strct i).fields.zip vs)[p]? = some (f, v) := by
    rw [List.getElem?_zip_eq_some]; exact ⟨hf, hv⟩
  unfold flatItems
  rw [flatMap_single _ _ p (f, v) hz ?_]
  · simp only [hk]
  · rintro q ⟨g, w⟩ hq hne
    rw [List.getElem?_zip_eq_some] at hq
    simp only
    split
    · rename_i e' hk'
      exact absurd (hone q p g f e' e hq.1 hf hk' hk) hne
    · rfl

/-- The name of the items of an enum. -/
theorem variantItems_name {d : EnumDef} {v : Val} {it : Item} (h : it ∈ variantItems d v) :
    ∃ j o w, v = .enm j o ∧ d.variants[j]? = some w ∧ it.name = w.name.expanded := by
  unfold variantItems at h
  split at h
  · split at h
    · simp at h
    · rename_i j o _ w hw
      split at h
      · simp at h
      · split at h
        · simp only [List.mem_singleton] at h; subst h; exact ⟨_, _, w, rfl, hw, rfl⟩
        · simp only [fieldItems, List.mem_map] at h
          obtain ⟨x, _, rfl⟩ := h
          exact ⟨_, _, w, rfl, hw, rfl⟩
        · simp at h
  · simp at h

/-- No item of a flattened field has the name of an element field. -/
theorem clear_apart {env : Env} {i : Nat} {vs : List Val} (hc : FlatClear env (env.strct i).fields vs) {it : Item}
    (hit : it ∈ flatItems env (env.strct i).fields vs) {g : Field} (hg : g ∈ (env.strct i).fields) {s : Slot} (hs : g.kind = .element s) :
    it.name ≠ g.name.expanded := by
  unfold flatItems at hit
  obtain ⟨⟨f, v⟩, hx, hit⟩ := List.mem_flatMap.mp hit
  obtain ⟨p, hp⟩ := List.mem_iff_getElem?.mp hx
  rw [List.getElem?_zip_eq_some] at hp
  dsimp only at hit
  split at hit
  · rename_i e hk
    obtain ⟨j, o, w, rfl, hw, hn⟩ := variantItems_name hit
    rw [hn]
    exact fun h => hc.2 p f e j o w hp.1 hp.2 hk hw g hg s hs h.symm
  · simp at hit

/-! ### Faithful values are read back -/

theorem enumValue_paired {env : Env} (hok : EnvOk env) {i : Nat} {v : Val} {ks : List Kid} (hr : Faithful env (.enm i) v)
    (h : Paired Matches (variantItems (env.enm i) v) ks) : enumValue (env.enm i) ks = some v := by
  cases hr with
  | @unit _ j w hv hs =>
    have hsk := hok.noSkip i w (List.mem_of_getElem? hv)
    simp only [variantItems, hv, hs, hsk, Bool.false_eq_true, if_false] at h
    cases h with
    | @cons _ k _ _ h' t =>
      cases t
      have := choices_of_named (variantOf_eq hok hv) (ks := [k]) (by simpa using h'.1)
      unfold enumValue
      simp only [this, List.map_cons, List.map_nil, List.all_nil, if_true, hv, hs]
  | @payload _ j w s p hv hs card ne items =>
    have hsk := hok.noSkip i w (List.mem_of_getElem? hv)
    simp only [variantItems, hv, hs, hsk, Bool.false_eq_true, if_false] at h
    have hval := slotValue_paired (absent := none) card (fun h => absurd h ne) h
    have hch := choices_of_named (variantOf_eq hok hv) (paired_names h)
    cases ks with
    | nil => simp [slotValue] at hval
    | cons k ks =>
      unfold enumValue
      simp only [List.map_cons] at hch
      simp [hch, hv, hs, List.all_eq_true]
      rw [show ((Prod.snd : Nat × Kid → Kid) ∘ fun k => (j, k)) = id from rfl, List.map_id, hval]

theorem structValue_paired {env : Env} (hok : EnvOk env) {i : Nat} {vs : List Val} (hr : Faithful env (.strct i) (.strct vs))
    {attrs : List XAttr} {ks : List Kid} {text : String}
    (ha : attrs.map (fun a => (a.name.expanded, a.value)) = structAttrs (env.strct i).fields vs)
    (h : Paired Matches (structItems env (env.strct i).fields vs) ks) :
    structValue env (env.strct i).fields { attrs, kids := ks, text } = some (.strct vs) := by
  cases hr with
  | strct len attrsOk card elems flats clear =>
    unfold structValue
    have hf := fieldsValue_eq (env := env) (all := (env.strct i).fields) (b := { attrs := attrs, kids := ks, text := text }) [] (env.strct i).fields vs len (by
      intro p f v hf hv
      simp only [List.nil_append]
      unfold fieldValue
      cases hk : f.kind with
      | element s =>
        simp only
        obtain ⟨hc, hab⟩ := card p f s v hf hv hk
        refine slotValue_paired (n := f.name.expanded) hc hab ?_
        have := h.filter (fun it => it.name == f.name.expanded) (fun k => k.name == f.name.expanded) (by
          intro a b hab; rw [hab.1])
        rw [structItems_split hok hf hv hk, List.filter_eq_nil_iff.mpr ?_, List.append_nil] at this
        · exact this
        · intro it hit
          simpa using clear_apart clear hit (List.mem_of_getElem? hf) hk
      | «attribute» o t =>
        simp only
        exact attrValue_readable hok hf hv hk (attrsOk p f v o t hf hv hk) ha
      | flatten e =>
        simp only
        rw [flatTypes_nil ?_]
        · simp only [past]
          refine enumValue_paired hok (flats p f e v hf hv hk) ?_
          have := h.filter (fun it => !declaredElem (env.strct i).fields it.name) (fun k => !declaredElem (env.strct i).fields k.name) (by
            intro a b hab; rw [hab.1])
          rw [structItems_strangers', List.filter_eq_self.mpr ?_, flatItems_single clear.1 hf hv hk] at this
          · exact this
          · intro it hit
            rw [Bool.not_eq_true', Bool.eq_false_iff]
            intro hd
            obtain ⟨g, hg, s, hs, hgn⟩ := declaredElem_iff.mp hd
            exact clear_apart clear hit hg hs hgn.symm
        · intro q g e' hg hq hk'
          have := clear.1 q p g f e' e hg hf hk' hk
          omega
      | text t => exact absurd hk (hok.noText i f t (List.mem_of_getElem? hf)))
    simp only [flatTypes] at hf
    rw [hf]
    rfl

theorem variantItems_faithful {env : Env} {i : Nat} {v : Val} (h : Faithful env (.enm i) v) : ∀ it ∈ variantItems (env.enm i) v, ItemFaithful env it := by
  intro it hit
  cases h with
  | @unit _ j w hv hs =>
    simp only [variantItems, hv, hs] at hit
    split at hit
    · simp at hit
    · simp only [List.mem_singleton] at hit
      subst hit
      intro ty v h
      simp at h
  | @payload _ j w s p hv hs card ne items =>
    simp only [variantItems, hv, hs] at hit
    split at hit
    · simp at hit
    · simp only [fieldItems, List.mem_map] at hit
      obtain ⟨x, hx, rfl⟩ := hit
      intro ty v h
      cases h
      exact items x hx

theorem structItems_faithful {env : Env} {i : Nat} {vs : List Val} (h : Faithful env (.strct i) (.strct vs)) :
    ∀ it ∈ structItems env (env.strct i).fields vs, ItemFaithful env it := by
  intro it hit
  cases h with
  | strct len attrsOk card elems flats =>
    simp only [structItems, List.mem_append, List.mem_flatMap] at hit
    rcases hit with ⟨x, hx, hit⟩ | ⟨x, hx, hit⟩
    all_goals
      obtain ⟨p, hp⟩ := List.mem_iff_getElem?.mp hx
      rw [List.getElem?_zip_eq_some] at hp
    · split at hit
      · rename_i s hk
        simp only [fieldItems, List.mem_map] at hit
        obtain ⟨w, hw, rfl⟩ := hit
        intro ty v h
        cases h
        exact elems p _ s _ w hp.1 hp.2 hk hw
      · simp at hit
    · split at hit
      · rename_i e hk
        exact variantItems_faithful (flats p _ e _ hp.1 hp.2 hk) it hit
      · simp at hit

theorem paired_matches {env : Env} {l : List Item} {ks : List Kid} (h : Paired (Reads env) l ks) (hr : ∀ it ∈ l, ItemFaithful env it) :
    Paired Matches l ks := by
  induction h with
  | nil => exact .nil
  | cons h t ih =>
    exact .cons ⟨h.1, fun ty v hv => (h.2 ty v hv).mpr (hr _ List.mem_cons_self ty v hv)⟩ (ih fun it hit => hr it (by simp [hit]))

/-! ### And only they -/

theorem paired_names' {env : Env} {l : List Item} {ks : List Kid} {n : EName} (h : Paired (Reads env) l ks) (hl : ∀ it ∈ l, it.name = n) :
    ∀ k ∈ ks, Kid.name k = n := by
  induction h with
  | nil => simp
  | cons h t ih =>
    intro k hk
    simp only [List.mem_cons] at hk
    rcases hk with rfl | hk
    · rw [h.1]; exact hl _ List.mem_cons_self
    · exact ih (fun it hit => hl it (by simp [hit])) k hk

theorem paired_length {α β : Type} {R : α → β → Prop} {l : List α} {m : List β} (h : Paired R l m) : l.length = m.length := by
  induction h with
  | nil => rfl
  | cons _ _ ih => simp [ih]

theorem paired_kidNames {env : Env} {l : List Item} {ks : List Kid} (h : Paired (Reads env) l ks) : ks.map Kid.name = l.map Item.name := by
  induction h with
  | nil => rfl
  | cons h t ih => simp [ih, h.1]

theorem allAs_faithful {env : Env} {n : EName} {ty : Ty} {l l' : List Val} {ks : List Kid}
    (h : Paired (Reads env) (l.map fun x => { name := n, value := some (ty, x) }) ks) (ha : allAs ty ks = some l') (hl : l' = l) :
    ∀ x ∈ l, Faithful env ty x := by
  induction l generalizing ks l' with
  | nil => simp
  | cons x l ih =>
    cases h with
    | @cons _ k _ ks h t =>
      simp only [allAs] at ha
      split at ha
      · rename_i v vs h1 h2
        simp only [Option.some.injEq] at ha
        subst ha
        simp only [List.cons.injEq] at hl
        obtain ⟨rfl, rfl⟩ := hl
        intro y hy
        simp only [List.mem_cons] at hy
        rcases hy with rfl | hy
        · exact (h.2 _ _ rfl).mp h1
        · exact ih t h2 rfl y hy
      · simp at ha

theorem slotValue_faithful {env : Env} {s : Slot} {n : EName} {v : Val} {ks : List Kid} {absent : Option Val} (hc : CardOk s.card v)
    (h : Paired (Reads env) (fieldItems s n v) ks) (hv : slotValue s absent ks = some v) :
    (valuesOf s.card v = [] → absent = some v) ∧ ∀ x ∈ valuesOf s.card v, Faithful env s.ty x := by
  obtain ⟨card, ty⟩ := s
  unfold fieldItems at h
  cases card with
  | one =>
    simp only [valuesOf, List.map_cons, List.map_nil] at h
    cases h with
    | cons h' t =>
      cases t
      simp only [slotValue, List.isEmpty_nil, if_true] at hv
      simp only [valuesOf, List.mem_singleton, forall_eq, reduceCtorEq, false_implies, true_and]
      exact (h'.2 _ _ rfl).mp hv
  | opt =>
    obtain ⟨o, rfl⟩ := hc
    cases o with
    | none =>
      simp only [valuesOf, List.map_nil] at h
      cases h
      simpa [valuesOf, slotValue] using hv
    | some x =>
      simp only [valuesOf, List.map_cons, List.map_nil] at h
      cases h with
      | cons h' t =>
        cases t
        simp only [slotValue, List.isEmpty_nil, if_true, Option.map_eq_some_iff, Val.opt.injEq, Option.some.injEq, exists_eq_right] at hv
        simp only [valuesOf, List.mem_singleton, forall_eq, reduceCtorEq, false_implies, true_and]
        exact (h'.2 _ _ rfl).mp hv
  | many =>
    obtain ⟨l, rfl⟩ := hc
    simp only [valuesOf] at h ⊢
    cases ks with
    | nil =>
      cases l with
      | nil => simpa [slotValue] using hv
      | cons _ _ => cases h
    | cons k ks =>
      simp only [slotValue, Option.map_eq_some_iff] at hv
      obtain ⟨l', h1, h2⟩ := hv
      simp only [Val.vec.injEq] at h2
      refine ⟨?_, allAs_faithful h h1 h2⟩
      rintro rfl
      cases h

theorem enumValue_faithful {env : Env} (hok : EnvOk env) {i : Nat} {v : Val} {ks : List Kid} (ht : HasTy env (.enm i) v)
    (h : Paired (Reads env) (variantItems (env.enm i) v) ks) (hv : enumValue (env.enm i) ks = some v) : Faithful env (.enm i) v := by
  cases ht with
  | unit hw hs => exact .unit hw hs
  | @payload _ j w s p hw hs card items =>
    have hsk := hok.noSkip i w (List.mem_of_getElem? hw)
    simp only [variantItems, hw, hs, hsk, Bool.false_eq_true, if_false] at h
    have hn := paired_names' (n := w.name.expanded) h (by
      intro it hit
      simp only [fieldItems, List.mem_map] at hit
      obtain ⟨x, _, rfl⟩ := hit
      rfl)
    have hch := choices_of_named (variantOf_eq hok hw) hn
    cases ks with
    | nil => simp [enumValue, choices] at hv
    | cons k ks =>
      have hval : slotValue s none (k :: ks) = some p := by
        unfold enumValue at hv
        simp only [List.map_cons] at hch
        simp [hch, hw, hs, List.all_eq_true] at hv
        rw [show ((Prod.snd : Nat × Kid → Kid) ∘ fun k => (j, k)) = id from rfl, List.map_id] at hv
        exact hv
      obtain ⟨h1, h2⟩ := slotValue_faithful card h hval
      exact .payload hw hs card (fun h => by simpa using h1 h) h2

theorem allAs_length {ty : Ty} {ks : List Kid} {l : List Val} (h : allAs ty ks = some l) : l.length = ks.length := by
  induction ks generalizing l with
  | nil => simp only [allAs, Option.some.injEq] at h; subst h; rfl
  | cons k ks ih =>
    simp only [allAs] at h
    split at h
    · rename_i v vs _ h2
      simp only [Option.some.injEq] at h
      subst h
      simp [ih h2]
    · simp at h

/-- A field has as many values as it has children, if it has any. -/
theorem slotValue_length {s : Slot} {absent : Option Val} {ks : List Kid} {v : Val} (h : slotValue s absent ks = some v) (hne : ks ≠ []) :
    (valuesOf s.card v).length = ks.length := by
  cases ks with
  | nil => exact absurd rfl hne
  | cons k ks =>
    simp only [slotValue] at h
    cases hc : s.card with
    | one =>
      simp only [hc] at h
      split at h
      · rename_i he
        have : ks = [] := by simpa using he
        subst this
        rfl
      · simp at h
    | opt =>
      simp only [hc] at h
      split at h
      · rename_i he
        have : ks = [] := by simpa using he
        subst this
        obtain ⟨w, -, rfl⟩ := Option.map_eq_some_iff.mp h
        rfl
      · simp at h
    | many =>
      simp only [hc, Option.map_eq_some_iff] at h
      obtain ⟨l, h1, rfl⟩ := h
      exact allAs_length h1

theorem structValue_faithful {env : Env} (hok : EnvOk env) {i : Nat} {vs : List Val} (ht : HasTy env (.strct i) (.strct vs))
    {attrs : List XAttr} {ks : List Kid} {text : String}
    (ha : attrs.map (fun a => (a.name.expanded, a.value)) = structAttrs (env.strct i).fields vs)
    (h : Paired (Reads env) (structItems env (env.strct i).fields vs) ks)
    (hv : structValue env (env.strct i).fields { attrs, kids := ks, text } = some (.strct vs)) : Faithful env (.strct i) (.strct vs) := by
  cases ht with
  | strct len shape elems flats =>
    have hv0 := hv
    simp only [structValue, Option.map_eq_some_iff, Val.strct.injEq, exists_eq_right] at hv
    obtain ⟨-, hget⟩ := fieldsValue_at [] _ _ hv
    simp only [List.nil_append] at hget
    have hat : ∀ {p : Nat} {f : Field}, (env.strct i).fields[p]? = some f → ∃ v, vs[p]? = some v := by
      intro p f hf
      have : p < vs.length := by rw [len]; exact (List.getElem?_eq_some_iff.mp hf).1
      exact ⟨_, List.getElem?_eq_getElem this⟩
    -- what is flattened has no names of element fields: otherwise there would be too many children
    have hnone : ∀ (p : Nat) (f : Field) (s : Slot), (env.strct i).fields[p]? = some f → f.kind = .element s →
        (flatItems env (env.strct i).fields vs).filter (fun it => it.name == f.name.expanded) = [] := by
      intro p f s hf hk
      obtain ⟨v, hv⟩ := hat hf
      have hfv := hget p f v hf hv
      simp only [fieldValue, hk] at hfv
      have := paired_length (h.filter (fun it => it.name == f.name.expanded) (fun k => k.name == f.name.expanded) (by
          intro a b hab; rw [hab.1]))
      rw [structItems_split hok hf hv hk, List.length_append] at this
      rw [← List.length_eq_zero_iff]
      by_cases hne : named f.name.expanded ks = []
      · simp only [named] at hne
        rw [hne] at this
        simp only [List.length_nil] at this
        omega
      · have hl := slotValue_length hfv hne
        simp only [named] at hl
        simp only [fieldItems, List.length_map] at this
        omega
    have hund : ∀ it ∈ flatItems env (env.strct i).fields vs, declaredElem (env.strct i).fields it.name = false := by
      intro it hit
      rw [Bool.eq_false_iff]
      intro hd
      obtain ⟨g, hg, s, hs, hgn⟩ := declaredElem_iff.mp hd
      obtain ⟨p, hp⟩ := List.mem_iff_getElem?.mp hg
      have := List.filter_eq_nil_iff.mp (hnone p g s hp hs) it hit
      simp [hgn] at this
    have hin : ∀ {p : Nat} {f : Field} {e : Nat} {v : Val}, (env.strct i).fields[p]? = some f → vs[p]? = some v → f.kind = .flatten e →
        ∀ it ∈ variantItems (env.enm e) v, it ∈ flatItems env (env.strct i).fields vs := by
      intro p f e v hf hv hk it hit
      unfold flatItems
      refine List.mem_flatMap.mpr ⟨(f, v), ?_, by simpa only [hk] using hit⟩
      exact List.mem_of_getElem? (by rw [List.getElem?_zip_eq_some]; exact ⟨hf, hv⟩ : ((env.strct i).fields.zip vs)[p]? = some (f, v))
    -- and there is one flattened field at most
    have hone : ∀ (p q : Nat) (f g : Field) e e', (env.strct i).fields[p]? = some f → (env.strct i).fields[q]? = some g →
        f.kind = .flatten e → g.kind = .flatten e' → ¬ p < q := by
      intro p
      induction p using Nat.strongRecOn with
      | _ p ih =>
        intro q f g e e' hf hg hk hk' hlt
        obtain ⟨v, hv⟩ := hat hf
        obtain ⟨w, hw⟩ := hat hg
        refine two_flattens hok hf hv hk hg hw hk' hlt ?_ (fun it hit => hund it (hin hf hv hk it hit)) (b := { attrs := attrs, kids := ks, text := text }) (paired_kidNames h) hv0
        intro q' g' e'' hg' hq hk''
        exact ih q' hq p g' f e'' e hg' hf hk'' hk hq
    have hclear : FlatClear env (env.strct i).fields vs := by
      refine ⟨fun p q f g e e' hf hg hk hk' => ?_, ?_⟩
      · have h1 := hone p q f g e e' hf hg hk hk'
        have h2 := hone q p g f e' e hg hf hk' hk
        omega
      · intro p f e j o w hf hv hk hw g hg s hs hn
        have hne : variantItems (env.enm e) (.enm j o) ≠ [] := by
          have hfv := hget p f _ hf hv
          simp only [fieldValue, hk] at hfv
          exact enumValue_items hok hfv
        obtain ⟨it, hit⟩ := List.exists_mem_of_ne_nil _ hne
        obtain ⟨j', o', w', he, hw', hit'⟩ := variantItems_name hit
        cases he
        rw [hw] at hw'
        cases hw'
        have := hund it (hin hf hv hk it hit)
        rw [hit', Bool.eq_false_iff] at this
        exact this (declaredElem_iff.mpr ⟨g, hg, s, hs, hn⟩)
    have hslot : ∀ (p : Nat) (f : Field) (s : Slot) (v : Val), (env.strct i).fields[p]? = some f → vs[p]? = some v → f.kind = .element s →
        CardOk s.card v ∧ (valuesOf s.card v = [] → f.default.or (slotAbsent s) = some v) ∧ ∀ w ∈ valuesOf s.card v, Faithful env s.ty w := by
      intro p f s v hf hv hk
      have hc : CardOk s.card v := by
        have := shape p f v hf hv
        simpa only [Shape, hk] using this
      have hfv := hget p f v hf hv
      simp only [fieldValue, hk] at hfv
      have := h.filter (fun it => it.name == f.name.expanded) (fun k => k.name == f.name.expanded) (by
          intro a b hab; rw [hab.1])
      rw [structItems_split hok hf hv hk, hnone p f s hf hk, List.append_nil] at this
      exact ⟨hc, slotValue_faithful hc this hfv⟩
    refine .strct len ?_ ?_ ?_ ?_ hclear
    · intro p f v o t hf hv hk
      have hfv := hget p f v hf hv
      simp only [fieldValue, hk] at hfv
      exact attrReadable_of hok hf hv hk ha hfv
    · intro p f s v hf hv hk
      exact ⟨(hslot p f s v hf hv hk).1, (hslot p f s v hf hv hk).2.1⟩
    · intro p f s v w hf hv hk hw
      exact (hslot p f s v hf hv hk).2.2 w hw
    · intro p f e v hf hv hk
      have hfv := hget p f v hf hv
      simp only [fieldValue, hk] at hfv
      rw [flatTypes_nil ?_] at hfv
      · simp only [past] at hfv
        have := h.filter (fun it => !declaredElem (env.strct i).fields it.name) (fun k => !declaredElem (env.strct i).fields k.name) (by
            intro a b hab; rw [hab.1])
        rw [structItems_strangers', List.filter_eq_self.mpr (fun it hit => by simp [hund it hit]), flatItems_single hclear.1 hf hv hk] at this
        exact enumValue_faithful hok (flats p f e v hf hv hk) this hfv
      · intro q g e' hg hq hk'
        exact hone q p g f e' e hg hf hk' hk hq

theorem kids_reads {env : Env} (hok : EnvOk env) {l : List Item} {f : EForest} (h : Shows env l f) :
    ∀ (F : Forest), Denotes f F → (∀ it ∈ l, ItemTyped env it) → Paired (Reads env) l (kids env F) := by
  induction h with
  | nil =>
    intro F hF _
    rw [(denotes_nil (env := env) hF rfl).1]
    exact .nil
  | unit rest ih =>
    intro F hF hr
    obtain ⟨q, attrs, pos, c', rest', h1, h2, h3, h4, h5, -⟩ := denotes_elem (env := env) hF _ _ _ _ rfl
    rw [h5]
    exact .cons ⟨h1, by intro ty v h; simp at h⟩ (ih rest' h4 fun it hit => hr it (by simp [hit]))
  | @text n t tv s l f h rest ih =>
    intro F hF hr
    obtain ⟨q, attrs, pos, c', rest', h1, h2, h3, h4, h5, -⟩ := denotes_elem (env := env) hF _ _ _ _ rfl
    rw [h5]
    refine .cons ⟨h1, ?_⟩ (ih rest' h4 fun it hit => hr it (by simp [hit]))
    intro ty v hv
    simp only [Option.some.injEq, Prod.mk.injEq] at hv
    obtain ⟨rfl, rfl⟩ := hv
    obtain ⟨k1, k2⟩ := denotes_text (env := env) h3 s rfl
    simp only [bodyValue, k1, k2]
    constructor
    · intro hv
      split at hv
      · rename_i v' hp
        simp only [Option.some.injEq, Val.text.injEq] at hv
        subst hv
        exact .text h hp
      · simp at hv
    · intro hr
      cases hr with
      | text hs hp =>
        rw [h] at hs
        cases hs
        simp only [hp]
  | @strct n i vs g l f c rest ihc ih =>
    intro F hF hr
    obtain ⟨q, attrs, pos, c', rest', h1, h2, h3, h4, h5, -⟩ := denotes_elem (env := env) hF _ _ _ _ rfl
    rw [h5]
    refine .cons ⟨h1, ?_⟩ (ih rest' h4 fun it hit => hr it (by simp [hit]))
    intro ty v hv
    simp only [Option.some.injEq, Prod.mk.injEq] at hv
    obtain ⟨rfl, rfl⟩ := hv
    have hty := hr _ List.mem_cons_self _ _ rfl
    have hp := ihc c' h3 (structItems_typed hty)
    simp only [bodyValue]
    exact ⟨structValue_faithful hok hty h2 hp, fun hread =>
      structValue_paired hok hread h2 (paired_matches hp (structItems_faithful hread))⟩
  | @enm n i j p g l f c rest ihc ih =>
    intro F hF hr
    obtain ⟨q, attrs, pos, c', rest', h1, h2, h3, h4, h5, -⟩ := denotes_elem (env := env) hF _ _ _ _ rfl
    rw [h5]
    refine .cons ⟨h1, ?_⟩ (ih rest' h4 fun it hit => hr it (by simp [hit]))
    intro ty v hv
    simp only [Option.some.injEq, Prod.mk.injEq] at hv
    obtain ⟨rfl, rfl⟩ := hv
    have hty := hr _ List.mem_cons_self _ _ rfl
    have hp := ihc c' h3 (variantItems_typed hty)
    simp only [bodyValue]
    exact ⟨enumValue_faithful hok hty hp, fun hread => enumValue_paired hok hread (paired_matches hp (variantItems_faithful hread))⟩

/-- A document that represents a value has that value if and only if it is faithful. -/
theorem root_value_iff {env : Env} (hok : EnvOk env) {name : EName} {ty : Ty} {v : Val} {as : List (EName × String)} {g : EForest}
    (h : Represents env name ty v as g) (ht : HasTy env ty v) (x : Elem)
    (ha : x.attrs.map (fun a => (a.name.expanded, a.value)) = as) (hc : Denotes g x.children) :
    bodyValue env (x.body env) ty = some v ↔ Faithful env ty v := by
  have hd : Denotes (.elem x.name.expanded as g .nil) (.elem x.name x.attrs x.ns x.pos x.children x.endPos .nil) :=
    .elem rfl ha hc .nil
  have hs : Shows env [{ name := x.name.expanded, value := some (ty, v) }] (.elem x.name.expanded as g .nil) := by
    cases h with
    | text h r => exact .text h r
    | strct h r => exact .strct h r
    | enm h r => exact .enm h r
  have := kids_reads hok hs _ hd (by
    intro it hit
    simp only [List.mem_singleton] at hit
    subst hit
    intro ty' v' h
    cases h
    exact ht)
  cases this with
  | cons h t => exact h.2 _ _ rfl

/-- With at most one flattened field per struct, apart from the others, nothing gets in the way. -/
theorem faithful_readable {env : Env} (hfl : FlattenOk env) {ty : Ty} {v : Val} : Faithful env ty v ↔ Readable env ty v := by
  constructor
  · intro h
    induction h with
    | text hs hp => exact .text hs hp
    | strct len attrs card _ _ _ ih1 ih2 => exact .strct len attrs card ih1 ih2
    | unit hv hs => exact .unit hv hs
    | payload hv hs card ne _ ih => exact .payload hv hs card ne ih
  · intro h
    induction h with
    | text hs hp => exact .text hs hp
    | strct len attrs card _ _ ih1 ih2 =>
      refine .strct len attrs card ih1 ih2 ⟨hfl.one _, ?_⟩
      intro p f e j o w hf hv hk hw g hg s hs hn
      exact hfl.apart _ g f s e w hg (List.mem_of_getElem? hf) hs hk (List.mem_of_getElem? hw) hn.symm
    | unit hv hs => exact .unit hv hs
    | payload hv hs card ne _ ih => exact .payload hv hs card ne ih

end SX.Faith
