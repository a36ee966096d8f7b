import Verif.Proof.OpenRead
import Verif.Proof.DeriveSafe

/-
The implementations for all types that have `Deserialize` or `ParseText`.
-/
namespace SX.Open
open SX.Spec SX.Spec.Open

variable {σ τ α β : Type}

theorem deser_perform (V : Visitor σ) (D : Deser σ β) (path : List StackElem) (x : Elem) :
    deser V D path x = match perform V path x (D (infoOf path x)) with
      | .error f => .error f
      | .ok (.error f, _) => .error f
      | .ok (.ok r, stop) => .ok (r, stop) := by
  have hi : (infoOf path x : ElemInfo) = { name := x.name, ns := x.ns, depth := (path ++ [({ name := x.name, pos := x.pos } : StackElem)]).length } := by
    simp [infoOf]
  rw [hi]
  unfold deser
  simp only
  cases D { name := x.name, ns := x.ns, depth := (path ++ [({ name := x.name, pos := x.pos } : StackElem)]).length } with
  | done r => rfl
  | readString k => rfl
  | readTo sub k => rfl

theorem reads_perform (V : Visitor σ) (D : Deser σ β) (path : List StackElem) (x : Elem) (v : β) :
    Reads V D path x v ↔ ∃ stop, perform V path x (D (infoOf path x)) = .ok (.ok (.ok v), stop) := by
  unfold Reads
  rw [deser_perform]
  rcases perform V path x (D (infoOf path x)) with f | ⟨f | r, stop⟩ <;> simp

theorem reads_det {V : Visitor σ} {D : Deser σ β} {path : List StackElem} {x : Elem} {v w : β} (h : Reads V D path x v) (h' : Reads V D path x w) :
    v = w := by
  obtain ⟨s, h⟩ := h
  obtain ⟨s', h'⟩ := h'
  rw [h] at h'
  cases h'
  rfl

theorem makes_one (V : Visitor σ) (D : Deser σ β) (path : List StackElem) (x : Elem) (v : β) :
    makes V path x ((deOne D).init (infoOf path x)) = some v ↔ Reads V D path x v := by
  rw [reads_perform]
  unfold makes deOne
  simp only [perform_map]
  rcases perform V path x (D (infoOf path x)) with f | ⟨f | (e | r), stop⟩ <;> simp [Except.map, deserRet]

theorem makes_opt (V : Visitor σ) (D : Deser σ β) (path : List StackElem) (x : Elem) (v : Option β) :
    makes V path x ((deOpt D).init (infoOf path x)) = some v ↔ ∃ w, v = some w ∧ Reads V D path x w := by
  simp only [reads_perform]
  unfold makes deOpt
  simp only [perform_map]
  rcases perform V path x (D (infoOf path x)) with f | ⟨f | (e | r), stop⟩ <;> simp [Except.map, deserRet, eq_comm]

theorem makes_vec (V : Visitor σ) (D : Deser σ β) (path : List StackElem) (x : Elem) (v : List β) :
    makes V path x ((deVec D).init (infoOf path x)) = some v ↔ ∃ w, v = [w] ∧ Reads V D path x w := by
  simp only [reads_perform]
  unfold makes deVec
  simp only [perform_map]
  rcases perform V path x (D (infoOf path x)) with f | ⟨f | (e | r), stop⟩ <;> simp [Except.map, deserRet, eq_comm]

theorem changes_vec (V : Visitor σ) (D : Deser σ β) (path : List StackElem) (x : Elem) (l v : List β) :
    changes V path x ((deVec D).update l (infoOf path x)) = some v ↔ ∃ w, v = l ++ [w] ∧ Reads V D path x w := by
  simp only [reads_perform]
  unfold changes deVec
  simp only [perform_map]
  rcases perform V path x (D (infoOf path x)) with f | ⟨f | (e | r), stop⟩ <;> simp [Except.map, deserRet, eq_comm]

/-- `T`: no child, or one. -/
theorem fill_one (V : Visitor σ) (D : Deser σ β) (path : List StackElem) (xs : List Elem) (c : Option β) :
    fill V path (deOne D) none xs = some c ↔ xs = [] ∧ c = none ∨ ∃ x v, xs = [x] ∧ c = some v ∧ Reads V D path x v := by
  match xs with
  | [] => simp [fill, eq_comm]
  | [x] =>
    simp only [fill]
    cases hm : makes V path x ((deOne D).init (infoOf path x)) with
    | none =>
      simp only [reduceCtorEq, false_iff, List.cons_ne_nil, false_and, false_or, List.cons.injEq, and_true]
      rintro ⟨y, v, rfl, rfl, h⟩
      rw [(makes_one V D path x v).mpr h] at hm
      cases hm
    | some w =>
      have hw := (makes_one V D path x w).mp hm
      constructor
      · rintro ⟨⟩
        exact .inr ⟨x, w, rfl, rfl, hw⟩
      · rintro (⟨h, -⟩ | ⟨y, v, h, rfl, hv⟩)
        · cases h
        · cases h
          rw [reads_det hv hw]
  | x :: y :: l =>
    have h1 : ∀ v, changes V path y ((deOne D).update v (infoOf path y)) = none := fun v => rfl
    simp only [fill, h1]
    cases makes V path x ((deOne D).init (infoOf path x)) <;> simp

theorem fill_opt (V : Visitor σ) (D : Deser σ β) (path : List StackElem) (xs : List Elem) (c : Option (Option β)) :
    fill V path (deOpt D) none xs = some c ↔ xs = [] ∧ c = none ∨ ∃ x v, xs = [x] ∧ c = some (some v) ∧ Reads V D path x v := by
  match xs with
  | [] => simp [fill, eq_comm]
  | [x] =>
    simp only [fill]
    cases hm : makes V path x ((deOpt D).init (infoOf path x)) with
    | none =>
      simp only [reduceCtorEq, false_iff, List.cons_ne_nil, false_and, false_or, List.cons.injEq, and_true]
      rintro ⟨y, v, rfl, rfl, h⟩
      rw [(makes_opt V D path x (some v)).mpr ⟨v, rfl, h⟩] at hm
      cases hm
    | some w =>
      obtain ⟨u, rfl, hw⟩ := (makes_opt V D path x w).mp hm
      constructor
      · rintro ⟨⟩
        exact .inr ⟨x, u, rfl, rfl, hw⟩
      · rintro (⟨h, -⟩ | ⟨y, v, h, rfl, hv⟩)
        · cases h
        · cases h
          rw [reads_det hv hw]
  | x :: y :: l =>
    have h1 : ∀ v, changes V path y ((deOpt D).update v (infoOf path y)) = none := fun v => rfl
    simp only [fill, h1]
    cases makes V path x ((deOpt D).init (infoOf path x)) <;> simp

theorem fill_vec_some (V : Visitor σ) (D : Deser σ β) (path : List StackElem) (xs : List Elem) (l : List β) (c : Option (List β)) :
    fill V path (deVec D) (some l) xs = some c ↔ ∃ vs, c = some (l ++ vs) ∧ Rowwise (Reads V D path) xs vs := by
  induction xs generalizing l with
  | nil =>
    simp only [fill, Option.some.injEq]
    constructor
    · rintro rfl
      exact ⟨[], by simp, .nil⟩
    · rintro ⟨vs, rfl, h⟩
      cases h
      simp
  | cons x xs ih =>
    simp only [fill]
    cases hm : changes V path x ((deVec D).update l (infoOf path x)) with
    | none =>
      simp only [reduceCtorEq, false_iff]
      rintro ⟨vs, rfl, h⟩
      cases h with
      | cons h t =>
        rw [(changes_vec V D path x l _).mpr ⟨_, rfl, h⟩] at hm
        cases hm
    | some w =>
      obtain ⟨u, rfl, hw⟩ := (changes_vec V D path x l w).mp hm
      simp only
      rw [ih]
      constructor
      · rintro ⟨vs, rfl, h⟩
        exact ⟨u :: vs, by simp, .cons hw h⟩
      · rintro ⟨vs, rfl, h⟩
        cases h with
        | cons h t =>
          rw [reads_det h hw]
          exact ⟨_, by simp, t⟩

theorem fill_vec (V : Visitor σ) (D : Deser σ β) (path : List StackElem) (xs : List Elem) (c : Option (List β)) :
    fill V path (deVec D) none xs = some c ↔ xs = [] ∧ c = none ∨ xs ≠ [] ∧ ∃ vs, c = some vs ∧ Rowwise (Reads V D path) xs vs := by
  cases xs with
  | nil => simp [fill, eq_comm]
  | cons x xs =>
    simp only [fill]
    cases hm : makes V path x ((deVec D).init (infoOf path x)) with
    | none =>
      simp only [reduceCtorEq, false_iff, false_and, false_or, ne_eq, not_false_eq_true, true_and]
      rintro ⟨vs, rfl, h⟩
      cases h with
      | cons h t =>
        rw [(makes_vec V D path x _).mpr ⟨_, rfl, h⟩] at hm
        cases hm
    | some w =>
      obtain ⟨u, rfl, hw⟩ := (makes_vec V D path x w).mp hm
      simp only [fill_vec_some, reduceCtorEq, false_and, false_or, ne_eq, not_false_eq_true, true_and]
      constructor
      · rintro ⟨vs, rfl, h⟩
        exact ⟨u :: vs, by simp, .cons hw h⟩
      · rintro ⟨vs, rfl, h⟩
        cases h with
        | cons h t =>
          rw [reads_det h hw]
          exact ⟨_, by simp, t⟩

/-! ### Values among those of other types -/

theorem fill_into (V : Visitor σ) (path : List StackElem) (impl : FieldImpl σ β) (inj : β → α) (get : α → Option β) (hg : ∀ b, get (inj b) = some b)
    (c : Option β) (xs : List Elem) :
    fill V path (impl.into inj get) (c.map inj) xs = (fill V path impl c xs).map fun c => c.map inj := by
  induction xs generalizing c with
  | nil => cases c <;> rfl
  | cons x xs ih =>
    cases c with
    | none =>
      simp only [Option.map_none, fill, makes, FieldImpl.into, perform_map]
      rcases perform V path x (impl.init (infoOf path x)) with f | ⟨v | e | _, stop⟩
      · rfl
      · exact ih (some v)
      · rfl
      · rfl
    | some v =>
      simp only [Option.map_some, fill, changes, FieldImpl.into, hg, perform_map]
      rcases perform V path x (impl.update v (infoOf path x)) with f | ⟨⟨w, u | e | _⟩, stop⟩
      · rfl
      · exact ih (some w)
      · rfl
      · rfl

theorem fillAttr_into (impl : AttrImpl β) (inj : β → α) (as : List XAttr) :
    fillAttr (impl.into inj) as = (fillAttr impl as).map fun c => c.map inj := by
  match as with
  | [] => rfl
  | [a] =>
    simp only [fillAttr, AttrImpl.into]
    cases impl.init a.value <;> rfl
  | _ :: _ :: _ => rfl

/-! ### No error is swallowed -/

theorem structRaw_strict {fields : List (OField σ τ α)} (he : ∀ f ∈ fields, ∀ impl, f.kind = .element impl → Strict impl)
    (hr : ∀ f ∈ fields, ∀ raw, f.kind = .flatten raw → RawStrict raw) : RawStrict (structRaw fields) := by
  have hdel : ∀ ps t info a, delegateElement fields info ps t = .ok (.take a) → Action.NoSwallow (fun r => ∀ t, r ≠ .ok (t, .ok ())) a := by
    intro ps
    induction ps with
    | nil => intro t info a h; cases h
    | cons p ps ih =>
      intro t info a h
      unfold delegateElement at h
      split at h
      · rename_i raw _ t' hf ht
        split at h
        · cases h
        · exact ih _ _ _ h
        · rename_i b hb
          cases h
          refine noSwallow_map (hr _ (List.mem_of_getElem? hf) raw rfl t' info b hb) fun r h t => ?_
          rcases r with f | ⟨u, v⟩
          · intro h; cases h
          · intro h'
            simp only [Except.map, Except.ok.injEq, Prod.mk.injEq] at h'
            exact h u (by rw [h'.2])
      · cases h
  intro t info a h
  change SX.Open.structElement fields t info = _ at h
  unfold SX.Open.structElement at h
  split at h
  · cases h
  · exact hdel _ _ _ _ h
  · split at h
    · rename_i impl _ present cell hf ht
      have hs := he _ (List.mem_of_getElem? hf) impl rfl
      split at h
      · split at h
        · cases h
        · cases h
          refine noSwallow_map (hs.update _ info) fun r hr t h => ?_
          simp only [Except.ok.injEq, Prod.mk.injEq] at h
          exact hr h.2
      · cases h
        refine noSwallow_map (hs.init info) fun r hr t h => ?_
        rcases r with v | e | _
        · exact hr v rfl
        · simp at h
        · simp at h
    · cases h

theorem enumRaw_strict {vs : List (OVariant σ α)} (he : ∀ v ∈ vs, ∀ impl, v.payload = some impl → Strict impl) (ident : String) :
    RawStrict (enumRaw ident vs) := by
  intro t info a h
  change SX.Open.enumElement vs t info = _ at h
  unfold SX.Open.enumElement at h
  split at h
  · cases h
  · split at h
    · split at h
      · cases h
      · split at h
        · cases h
        · rename_i v hv
          split at h
          · split at h
            · cases h; exact trivial
            · rename_i impl p hpl _
              cases h
              refine noSwallow_map ((he v (List.mem_of_getElem? hv) impl hpl).update _ info) fun r hr t h => ?_
              simp only [Except.ok.injEq, Prod.mk.injEq] at h
              exact hr h.2
            · cases h
          · split at h
            · cases h; exact trivial
            · cases h; exact trivial
    · split at h
      · cases h
      · split at h
        · cases h
        · rename_i v hv
          split at h
          · cases h; exact trivial
          · rename_i impl hpl
            cases h
            refine noSwallow_map ((he v (List.mem_of_getElem? hv) impl hpl).init info) fun r hr t h => ?_
            rcases r with v | e | _
            · exact hr v rfl
            · simp at h
            · simp at h

theorem heardElem_noSwallow {emb : τ → σ} {raw : Raw σ τ α} (h : RawStrict raw) (t : τ) (info : ElemInfo) :
    Action.NoSwallow (fun r => ∀ v', r ≠ .ok (v', .ok ())) (heardElem emb (raw.element t info)) := by
  rcases hr : raw.element t info with f | (t' | a)
  · exact trivial
  · exact trivial
  · refine noSwallow_map (h t info a hr) fun r hr v' h' => ?_
    rcases r with f | ⟨t, u | e | _⟩
    · cases h'
    · exact hr t rfl
    · cases h'
    · cases h'

theorem deOne_strict {D : Deser σ β} (h : DeserNoSwallow D) : Strict (deOne D) where
  init info := noSwallow_map (h info) fun r hr v h => by
    rcases r with f | (e | v)
    · cases h
    · cases h
    · exact hr v rfl
  update _ _ := trivial

theorem deOpt_strict {D : Deser σ β} (h : DeserNoSwallow D) : Strict (deOpt D) where
  init info := noSwallow_map (h info) fun r hr v h => by
    rcases r with f | (e | v)
    · cases h
    · cases h
    · exact hr v rfl
  update _ _ := trivial

theorem deVec_strict {D : Deser σ β} (h : DeserNoSwallow D) : Strict (deVec D) where
  init info := noSwallow_map (h info) fun r hr v h => by
    rcases r with f | (e | v)
    · cases h
    · cases h
    · exact hr v rfl
  update _ info := noSwallow_map (h info) fun r hr h => by
    rcases r with f | (e | v)
    · cases h
    · cases h
    · exact hr v rfl

theorem deText_noSwallow (parse : String → Ret DErr β) : DeserNoSwallow (deText parse : Deser σ β) := by
  intro info e a h
  simp [deText] at h

theorem into_strict {impl : FieldImpl σ β} (h : Strict impl) (inj : β → α) (get : α → Option β) : Strict (impl.into inj get) where
  init info := noSwallow_map (h.init info) fun r hr v h => by
    rcases r with v | e | _
    · exact hr v rfl
    · cases h
    · cases h
  update a info := by
    simp only [FieldImpl.into]
    split
    · exact trivial
    · exact noSwallow_map (h.update _ info) fun r hr => hr

end SX.Open
