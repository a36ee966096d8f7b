import Verif.Proof.Conserve
import Verif.Proof.Leaf

namespace SX.Conserve
open SX.Spec

/-- A value of the type, or an `Option` or a `Vec` of such. -/
def Carries (env : Env) (ty : Ty) (v : Val) : Prop :=
  HasTy env ty v ∨ (∃ w, v = .opt (some w) ∧ HasTy env ty w) ∨ ∃ l, v = .vec l ∧ ∀ w ∈ l, HasTy env ty w

theorem carries_card {env : Env} {s : Slot} {v x : Val} {C : Val → Val} (hx : v = C x) (hC : Place C) (hu : ∃ u, x = .text u) (card : CardOk s.card v)
    (items : ∀ w ∈ valuesOf s.card v, HasTy env s.ty w) : Carries env s.ty v := by
  obtain ⟨c, ty⟩ := s
  cases c with
  | one => exact .inl (items v (by simp [valuesOf]))
  | opt =>
    obtain ⟨o, rfl⟩ := card
    cases o with
    | none => obtain ⟨u, rfl⟩ := hu; cases hC <;> cases hx
    | some w => exact .inr (.inl ⟨w, rfl, items w (by simp [valuesOf])⟩)
  | many =>
    obtain ⟨l, rfl⟩ := card
    exact .inr (.inr ⟨l, rfl, fun w hw => items w (by simpa [valuesOf] using hw)⟩)

theorem mem_leavesFields {env : Env} {fs : List Field} {l : List Val} {p : Nat} {f : Field} {v : Val} (hf : fs[p]? = some f) (hv : l[p]? = some v) {x : TextTy × TVal}
    (hx : x ∈ leaves env (kindTy f.kind) v) : x ∈ leavesFields env fs l := by
  rw [leavesFields_zip]
  refine List.mem_flatMap.mpr ⟨(f, v), List.mem_of_getElem? (i := p) ?_, hx⟩
  rw [List.getElem?_zip_eq_some]
  exact ⟨hf, hv⟩

/-- Every text in a value is among its texts. -/
theorem place_leaves {env : Env} {C : Val → Val} (hC : Place C) (u : TVal) : ∀ ty, Carries env ty (C (.text u)) → ∃ t, (t, u) ∈ leaves env ty (C (.text u)) := by
  induction hC with
  | here =>
    rintro ty (h | ⟨w, h, -⟩ | ⟨l, h, -⟩)
    · cases h with
      | @text t => exact ⟨t, by simp [leaves]⟩
    · cases h
    · cases h
  | @field a b C hC ih =>
    rintro ty (h | ⟨w, h, -⟩ | ⟨l, h, -⟩)
    · cases h with
      | @strct i _ len shape elems flats =>
        have hp : a.length < (env.strct i).fields.length := by rw [← len]; simp
        have hf : (env.strct i).fields[a.length]? = some (env.strct i).fields[a.length] := by simp
        have hv : (a ++ C (.text u) :: b)[a.length]? = some (C (.text u)) := by simp
        generalize (env.strct i).fields[a.length] = f at hf
        have hs := shape _ _ _ hf hv
        have key : Carries env (kindTy f.kind) (C (.text u)) := by
          cases hk : f.kind with
          | element s =>
            rw [hk] at hs
            exact carries_card (x := .text u) rfl hC ⟨u, rfl⟩ hs fun w hw => elems _ _ s _ w hf hv hk hw
          | «attribute» o t =>
            rw [hk] at hs
            cases o with
            | false => obtain ⟨tv, h1, h2⟩ := hs; exact .inl (h1 ▸ .text h2)
            | true =>
              rcases hs with h | ⟨_, h, tv, rfl, h2⟩
              · cases hC <;> cases h
              · exact .inr (.inl ⟨_, h, .text h2⟩)
          | flatten e => exact .inl (flats _ _ e _ hf hv hk)
          | text t =>
            rw [hk] at hs
            obtain ⟨tv, h1, h2⟩ := hs
            exact .inl (h1 ▸ .text h2)
        obtain ⟨t, ht⟩ := ih _ key
        exact ⟨t, by simpa only [leaves] using mem_leavesFields hf hv ht⟩
    · cases h
    · cases h
  | @payload i C hC ih =>
    rintro ty (h | ⟨w, h, -⟩ | ⟨l, h, -⟩)
    · cases h with
      | @payload e _ w s _ hv hs card items =>
        obtain ⟨t, ht⟩ := ih _ (carries_card (x := .text u) rfl hC ⟨u, rfl⟩ card items)
        exact ⟨t, by simpa only [leaves, hv, hs] using ht⟩
    · cases h
    · cases h
  | @opt C hC ih =>
    rintro ty (h | ⟨w, h, hw⟩ | ⟨l, h, -⟩)
    · cases h
    · cases h
      obtain ⟨t, ht⟩ := ih _ (.inl hw)
      exact ⟨t, by cases ty <;> simpa only [leaves] using ht⟩
    · cases h
  | @item a b C hC ih =>
    rintro ty (h | ⟨w, h, hw⟩ | ⟨l, h, hl⟩)
    · cases h
    · cases h
    · cases h
      obtain ⟨t, ht⟩ := ih _ (.inl (hl _ (by simp)))
      refine ⟨t, ?_⟩
      have : (t, u) ∈ leavesAll env ty (a ++ C (.text u) :: b) := by
        rw [leavesAll_flatMap]
        exact List.mem_flatMap.mpr ⟨_, by simp, ht⟩
      cases ty <;> simpa only [leaves] using this

/-- Every one of the texts of a value is in it. -/
theorem leaves_place (env : Env) (t : TextTy) (u : TVal) (ty : Ty) (v : Val) : (t, u) ∈ leaves env ty v → ∃ C, Place C ∧ v = C (.text u) := by
  refine leaves.induct env (motive_1 := fun ty v => (t, u) ∈ leaves env ty v → ∃ C, Place C ∧ v = C (.text u))
    (motive_2 := fun ty l => (t, u) ∈ leavesAll env ty l → ∃ a C b, Place C ∧ l = a ++ C (.text u) :: b)
    (motive_3 := fun fs l => (t, u) ∈ leavesFields env fs l → ∃ a C b, Place C ∧ l = a ++ C (.text u) :: b) ?_ ?_ ?_ ?_ ?_ ?_ ?_ ?_ ?_ ?_ ?_ ?_ ty v
  · intro t' u' h
    simp only [leaves, List.mem_singleton, Prod.mk.injEq] at h
    obtain ⟨-, rfl⟩ := h
    exact ⟨id, .here, rfl⟩
  · intro i vs ih h
    obtain ⟨a, C, b, hC, rfl⟩ := ih (by simpa only [leaves] using h)
    exact ⟨_, .field a b hC, rfl⟩
  · intro i j v w hw s hs ih h
    obtain ⟨C, hC, rfl⟩ := ih (by simpa only [leaves, hw, hs] using h)
    exact ⟨_, .payload j hC, rfl⟩
  · intro i j v w hw hs h
    simp [leaves, hw, hs] at h
  · intro i j v hw h
    simp [leaves, hw] at h
  · intro ty v ih h
    obtain ⟨C, hC, rfl⟩ := ih (by cases ty <;> simpa only [leaves] using h)
    exact ⟨_, .opt hC, rfl⟩
  · intro ty l ih h
    obtain ⟨a, C, b, hC, rfl⟩ := ih (by cases ty <;> simpa only [leaves] using h)
    exact ⟨_, .item a b hC, rfl⟩
  · intro v ty h1 h2 h3 h4 h5 h
    unfold leaves at h
    split at h <;> simp_all
  · intro ty h
    simp [leavesAll] at h
  · intro ty v l ih1 ih2 h
    rcases List.mem_append.mp (by simpa only [leavesAll] using h) with h | h
    · obtain ⟨C, hC, rfl⟩ := ih1 h
      exact ⟨[], C, l, hC, rfl⟩
    · obtain ⟨a, C, b, hC, rfl⟩ := ih2 h
      exact ⟨v :: a, C, b, hC, rfl⟩
  · intro f fs v l ih1 ih2 h
    rcases List.mem_append.mp (by simpa only [leavesFields] using h) with h | h
    · obtain ⟨C, hC, rfl⟩ := ih1 h
      exact ⟨[], C, l, hC, rfl⟩
    · obtain ⟨a, C, b, hC, rfl⟩ := ih2 h
      exact ⟨v :: a, C, b, hC, rfl⟩
  · intro l fs h1 h
    rw [leavesFields_zip] at h
    cases fs with
    | nil => simp at h
    | cons f fs => cases l with
      | nil => simp at h
      | cons v l => exact absurd rfl fun e => h1 f fs v l e rfl

end SX.Conserve
