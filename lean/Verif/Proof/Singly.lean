import Verif.Spec.Singly
import Verif.Proof.Reread
import Verif.Proof.Faithful

/-
Values read are faithful, apart from structs with several flattened fields.
-/
namespace SX.Singly
open SX.Spec

def FineKids (env : Env) (ks : List Kid) : Prop :=
  ∀ k ∈ ks, ∀ ty v, (∀ t, ty = .text t → Stable t) → k.as ty = some v → Singly env ty v → Faithful env ty v

theorem FineKids.sub {env : Env} {ks ks' : List Kid} (h : FineKids env ks) (hs : ∀ k ∈ ks', k ∈ ks) : FineKids env ks' :=
  fun k hk => h k (hs k hk)

theorem faithful_singly {env : Env} {ty : Ty} {v : Val} (h : Faithful env ty v) : Singly env ty v := by
  induction h with
  | text _ _ => exact .text
  | strct _ _ _ _ _ clear ih1 ih2 => exact .strct clear.1 ih1 ih2
  | unit _ _ => exact .unit
  | payload hv hs _ _ _ ih => exact .payload hv hs ih

/-- Where each value of a slot comes from. -/
theorem slotValue_from {s : Slot} {absent : Option Val} {ks : List Kid} {v : Val} (h : slotValue s absent ks = some v) :
    (ks = [] ∧ absent = some v) ∨ ∀ w ∈ valuesOf s.card v, ∃ k ∈ ks, k.as s.ty = some w := by
  cases ks with
  | nil => exact .inl ⟨rfl, h⟩
  | cons k ks =>
    right
    simp only [slotValue] at h
    cases hc : s.card with
    | one =>
      simp only [hc] at h
      split at h
      · simp only [valuesOf, List.mem_singleton, forall_eq]
        exact ⟨k, by simp, h⟩
      · cases h
    | opt =>
      simp only [hc] at h
      split at h
      · obtain ⟨w, hw, rfl⟩ := Option.map_eq_some_iff.mp h
        simp only [valuesOf, List.mem_singleton, forall_eq]
        exact ⟨k, by simp, hw⟩
      · cases h
    | many =>
      simp only [hc] at h
      obtain ⟨l, hl, rfl⟩ := Option.map_eq_some_iff.mp h
      exact allAs_mem hl

theorem named_mem {n : EName} {ks : List Kid} : ∀ k ∈ named n ks, k ∈ ks := fun _ h => (List.mem_filter.mp h).1

theorem enumValue_fine {env : Env} (hok : EnvOk env) (hst : TextsStable env) {e : Nat} {ks : List Kid} {v : Val} (hg : FineKids env ks)
    (h : enumValue (env.enm e) ks = some v) (hr : Readable env (.enm e) v) (hs : Singly env (.enm e) v) : Faithful env (.enm e) v := by
  obtain ⟨j, w, hj, hne, -, h4⟩ := (enumValue_iff env hok e ks v).mp h
  cases hr with
  | unit hv hsl => exact .unit hv hsl
  | payload hv hsl card ne items =>
    rename_i j' w' s p
    split at h4
    · cases h4
    · rename_i s' hs'
      obtain ⟨p', hp, h5⟩ := h4
      cases h5
      rw [hj] at hv
      cases hv
      rw [hs'] at hsl
      cases hsl
      refine .payload hj hs' card ne fun x hx => ?_
      cases hs with
      | payload hv2 hs2 items2 =>
        rw [hj] at hv2
        cases hv2
        rw [hs'] at hs2
        cases hs2
        rcases slotValue_from hp with ⟨h6, -⟩ | h6
        · exact absurd h6 hne
        · obtain ⟨k, hk, h7⟩ := h6 x hx
          exact hg k (named_mem k hk) _ _ (fun t ht => hst.variants e w s t (List.mem_of_getElem? hj) hs' ht) h7 (items2 x hx)

theorem structValue_fine {env : Env} (hok : EnvOk env) (hst : TextsStable env) (hd : DefaultsClear env) {i : Nat} {b : Body} {v : Val}
    (hg : FineKids env b.kids) (h : structValue env (env.strct i).fields b = some v) (hr : Readable env (.strct i) v)
    (hs : Singly env (.strct i) v) : Faithful env (.strct i) v := by
  obtain ⟨vs, hvs, rfl⟩ := Option.map_eq_some_iff.mp h
  have hget : ∀ (p : Nat) (f : Field) (v : Val), (env.strct i).fields[p]? = some f → vs[p]? = some v →
      f ∈ (env.strct i).fields ∧ ∃ earlier, fieldValue env (env.strct i).fields b earlier f = some v := by
    intro p f v hf hv
    obtain ⟨pre, post, h1, h2⟩ := getElem?_split hf
    have h3 := hvs
    generalize hall : (env.strct i).fields = all at h3
    have h4 : fieldsValue env all b [] (pre ++ f :: post) = some vs := by rw [← h1, hall]; exact h3
    have := (fieldsValue_get env all b [] pre f post vs h4).1
    rw [h2, hv] at this
    exact ⟨List.mem_of_getElem? (hall ▸ hf), _, this⟩
  cases hr with
  | strct len attrs card elems flats =>
    cases hs with
    | strct one selems sflats =>
      refine .strct len attrs card ?_ ?_ ⟨one, ?_⟩
      · intro p f s v w hf hv hk hw
        obtain ⟨hm, ea, h⟩ := hget p f v hf hv
        simp only [fieldValue, hk] at h
        rcases slotValue_from h with ⟨-, h2⟩ | h2
        · cases hdf : f.default with
          | some d =>
            rw [hdf] at h2
            simp only [Option.some_or, Option.some.injEq] at h2
            subst h2
            exact hd i f s d hm hk hdf w hw (selems p f s d w hf hv hk hw)
          | none =>
            rw [hdf] at h2
            simp only [Option.none_or] at h2
            unfold slotAbsent at h2
            cases hc : s.card with
            | one => simp [hc] at h2
            | opt => simp [hc] at h2; subst h2; simp [hc, valuesOf] at hw
            | many => simp [hc] at h2; subst h2; simp [hc, valuesOf] at hw
        · obtain ⟨k, hk', h3⟩ := h2 w hw
          exact hg k (named_mem k hk') _ _ (fun t ht => hst.elems i f s t hm hk ht) h3 (selems p f s v w hf hv hk hw)
      · intro p f e v hf hv hk
        obtain ⟨hm, ea, h⟩ := hget p f v hf hv
        simp only [fieldValue, hk] at h
        exact enumValue_fine hok hst (hg.sub fun k hk => strangers_mem k (past_mem env _ _ k hk)) h (flats p f e v hf hv hk) (sflats p f e v hf hv hk)
      · intro p f e j o w hf hv hk hw g hg s hs hn
        obtain ⟨hm, ea, h⟩ := hget p f _ hf hv
        simp only [fieldValue, hk] at h
        obtain ⟨j', w', hj', hne, -, h4⟩ := (enumValue_iff env hok e _ _).mp h
        have hjj : j = j' := by
          split at h4
          · cases h4; rfl
          · obtain ⟨_, _, h5⟩ := h4; cases h5; rfl
        subst hjj
        rw [hw] at hj'
        cases hj'
        obtain ⟨k, hk'⟩ := List.exists_mem_of_ne_nil _ hne
        obtain ⟨hk1, hk2⟩ := List.mem_filter.mp hk'
        have hk3 := (List.mem_filter.mp (past_mem env _ _ k hk1)).2
        have hk4 : k.name = w.name.expanded := by simpa using hk2
        rw [declaredElem_of hg hs (hn.trans hk4.symm)] at hk3
        cases hk3

theorem bodyValue_fine {env : Env} (hok : EnvOk env) (hst : TextsStable env) (hd : DefaultsClear env) {b : Body} (hg : FineKids env b.kids)
    {ty : Ty} {v : Val} (h : bodyValue env b ty = some v) (hr : Readable env ty v) (hs : Singly env ty v) :
    Faithful env ty v := by
  cases ty with
  | text t =>
    cases hr with
    | text h1 h2 => exact .text h1 h2
  | strct i => exact structValue_fine hok hst hd hg h hr hs
  | enm i => exact enumValue_fine hok hst hg h hr hs

theorem kids_fine {env : Env} (hok : EnvOk env) (hst : TextsStable env) (hd : DefaultsOk env) (hc : DefaultsClear env) (f : Forest) (h : TextVisible f) :
    FineKids env (kids env f) := by
  induction f with
  | nil => intro k hk; simp [kids] at hk
  | elem n a ns p ch ep rest ih1 ih2 =>
    obtain ⟨h1, h2, h3⟩ := h
    intro k hk
    simp only [kids, List.mem_cons] at hk
    rcases hk with rfl | hk
    · intro ty v hty hv hs
      exact bodyValue_fine hok hst hc (b := { attrs := a, kids := kids env ch, text := ch.text }) (ih1 h2) hv
        (bodyValue_good hst hd (b := { attrs := a, kids := kids env ch, text := ch.text }) (kids_good hst hd ch h2) h1 hty hv).2 hs
    · exact ih2 h3 k hk
  | chars s c p rest ih => exact ih h
  | misc m p rest ih => exact ih h

theorem elem_fine {env : Env} (hok : EnvOk env) (hst : TextsStable env) (hd : DefaultsOk env) (hc : DefaultsClear env) (x : Elem) (h : x.TextVisible)
    {ty : Ty} {v : Val} (hty : ∀ t, ty = .text t → Stable t) (hv : bodyValue env (x.body env) ty = some v) :
    Faithful env ty v ↔ Singly env ty v :=
  ⟨faithful_singly, fun hs => bodyValue_fine hok hst hc (b := x.body env) (kids_fine hok hst hd hc _ h.2) hv
    (elem_good hst hd x h hty hv).2 hs⟩

/-- Types with at most one flattened field each. -/
theorem singly_of {env : Env} (hone : ∀ i (p q : Nat) (f g : Field) e e', (env.strct i).fields[p]? = some f → (env.strct i).fields[q]? = some g →
    f.kind = .flatten e → g.kind = .flatten e' → p = q) {ty : Ty} {v : Val} (h : HasTy env ty v) : Singly env ty v := by
  induction h with
  | text _ => exact .text
  | strct _ _ _ _ ih1 ih2 => exact .strct (hone _) ih1 ih2
  | unit _ _ => exact .unit
  | payload hv hs _ _ ih => exact .payload hv hs ih

end SX.Singly
