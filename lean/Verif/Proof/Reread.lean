import Verif.Spec.Reread
import Verif.Proof.DerivePrune
import Verif.Proof.RoundTrip

/-
Values read are of their type and can be read back.
-/
namespace SX
open SX.Spec

def GoodVal (env : Env) (ty : Ty) (v : Val) : Prop := HasTy env ty v ∧ Readable env ty v

/-- All children are good as any type. -/
def GoodKids (env : Env) (ks : List Kid) : Prop :=
  ∀ k ∈ ks, ∀ ty v, (∀ t, ty = .text t → Stable t) → k.as ty = some v → GoodVal env ty v

theorem GoodKids.sub {env : Env} {ks ks' : List Kid} (h : GoodKids env ks) (hs : ∀ k ∈ ks', k ∈ ks) : GoodKids env ks' :=
  fun k hk => h k (hs k hk)

theorem allAs_mem {ty : Ty} {ks : List Kid} {l : List Val} (h : allAs ty ks = some l) : ∀ w ∈ l, ∃ k ∈ ks, k.as ty = some w := by
  induction ks generalizing l with
  | nil => simp only [allAs, Option.some.injEq] at h; subst h; simp
  | cons k ks ih =>
    simp only [allAs] at h
    split at h
    · rename_i v vs hv hvs
      cases h
      intro w hw
      rcases List.mem_cons.mp hw with rfl | hw
      · exact ⟨k, by simp, hv⟩
      · obtain ⟨k', hk', h'⟩ := ih hvs w hw
        exact ⟨k', List.mem_cons_of_mem _ hk', h'⟩
    · cases h

theorem allAs_length {ty : Ty} {ks : List Kid} {l : List Val} (h : allAs ty ks = some l) : l.length = ks.length := by
  induction ks generalizing l with
  | nil => simp only [allAs, Option.some.injEq] at h; subst h; rfl
  | cons k ks ih =>
    simp only [allAs] at h
    split at h
    · rename_i v vs hv hvs
      cases h
      simp [ih hvs]
    · cases h

theorem slotValue_good {env : Env} {s : Slot} {absent : Option Val} {ks : List Kid} {v : Val} (hg : GoodKids env ks)
    (hst : ∀ t, s.ty = .text t → Stable t) (h : slotValue s absent ks = some v) :
    (ks = [] ∧ absent = some v) ∨
    (CardOk s.card v ∧ valuesOf s.card v ≠ [] ∧ ∀ w ∈ valuesOf s.card v, GoodVal env s.ty w) := by
  cases ks with
  | nil => exact .inl ⟨rfl, h⟩
  | cons k ks =>
    right
    simp only [slotValue] at h
    cases hc : s.card with
    | one =>
      simp only [hc] at h
      split at h
      · refine ⟨trivial, by simp [valuesOf], ?_⟩
        simp only [valuesOf, List.mem_singleton, forall_eq]
        exact hg k (by simp) _ _ hst h
      · cases h
    | opt =>
      simp only [hc] at h
      split at h
      · obtain ⟨w, hw, rfl⟩ := Option.map_eq_some_iff.mp h
        refine ⟨⟨_, rfl⟩, by simp [valuesOf], ?_⟩
        simp only [valuesOf, List.mem_singleton, forall_eq]
        exact hg k (by simp) _ _ hst hw
      · cases h
    | many =>
      simp only [hc] at h
      obtain ⟨l, hl, rfl⟩ := Option.map_eq_some_iff.mp h
      refine ⟨⟨_, rfl⟩, ?_, ?_⟩
      · have := allAs_length hl
        intro he
        simp only [valuesOf] at he
        subst he
        simp at this
      · intro w hw
        obtain ⟨k', hk', h'⟩ := allAs_mem hl w hw
        exact hg k' hk' _ _ hst h'

theorem enumValue_good {env : Env} (hst : TextsStable env) {e : Nat} {ks : List Kid} {v : Val} (hg : GoodKids env ks)
    (h : enumValue (env.enm e) ks = some v) : GoodVal env (.enm e) v := by
  unfold enumValue at h
  split at h
  · cases h
  · rename_i i k rest hc
    split at h
    · split at h
      · cases h
      · rename_i w hw
        split at h
        · rename_i hs
          cases h
          exact ⟨.unit hw hs, .unit hw hs⟩
        · rename_i s hs
          obtain ⟨p, hp, rfl⟩ := Option.map_eq_some_iff.mp h
          have hmem : ∀ x ∈ k :: rest.map Prod.snd, x ∈ ks := by
            have : ∀ c ∈ choices (env.enm e) ks, c.2 ∈ ks := by
              intro c hc
              simp only [choices, List.mem_filterMap] at hc
              obtain ⟨a, ha, h⟩ := hc
              obtain ⟨_, _, rfl⟩ := Option.map_eq_some_iff.mp h
              exact ha
            rw [hc] at this
            intro x hx
            rcases List.mem_cons.mp hx with rfl | hx
            · exact this (i, x) (by simp)
            · obtain ⟨c, hc, rfl⟩ := List.mem_map.mp hx
              exact this c (List.mem_cons_of_mem _ hc)
          rcases slotValue_good (hg.sub hmem) (fun t ht => hst.variants e w s t (List.mem_of_getElem? hw) hs ht) hp with ⟨h1, -⟩ | ⟨h1, h2, h3⟩
          · simp at h1
          · exact ⟨.payload hw hs h1 fun x hx => (h3 x hx).1, .payload hw hs h1 h2 fun x hx => (h3 x hx).2⟩
    · cases h

theorem strangers_mem {fields : List Field} {ks : List Kid} : ∀ k ∈ strangers fields ks, k ∈ ks := fun _ h => (List.mem_filter.mp h).1

theorem past_mem (env : Env) (es : List Nat) (ks : List Kid) : ∀ k ∈ past env es ks, k ∈ ks := by
  induction es generalizing ks with
  | nil => exact fun _ h => h
  | cons e es ih => exact fun k hk => (List.takeWhile_prefix _).subset (ih _ k hk)

/-- Attribute fields. -/
theorem attrValue_good {f : Field} {o : Bool} {t : TextTy} {l : List XAttr} {v : Val} (hst : Stable t)
    (hd : ∀ d, f.default = some d → Shape (.attribute o t) d ∧ AttrReadable f o t d)
    (h : attrValue o t (f.default.or (attrAbsent o)) l = some v) : Shape (.attribute o t) v ∧ AttrReadable f o t v := by
  match l, h with
  | [], h =>
    simp only [attrValue] at h
    cases hdf : f.default with
    | some d =>
      rw [hdf] at h
      simp only [Option.some_or, Option.some.injEq] at h
      subst h
      exact hd _ hdf
    | none =>
      rw [hdf] at h
      cases o with
      | false => simp [attrAbsent] at h
      | true =>
        simp [attrAbsent] at h
        subst h
        refine ⟨.inl rfl, ?_⟩
        simp [AttrReadable, attrText, hdf, attrAbsent]
  | [a], h =>
    simp only [attrValue] at h
    split at h
    · rename_i tv htv
      cases h
      obtain ⟨s', h1, h2, -⟩ := hst _ _ htv
      cases o with
      | false =>
        refine ⟨⟨tv, rfl, by simp [h1]⟩, ?_⟩
        simp only [AttrReadable, attrText, Bool.false_eq_true, if_false, h1]
        exact ⟨tv, h2, rfl⟩
      | true =>
        refine ⟨.inr ⟨_, rfl, tv, rfl, by simp [h1]⟩, ?_⟩
        simp only [AttrReadable, attrText, if_true, h1]
        exact ⟨tv, h2, rfl⟩
    · cases h
  | _ :: _ :: _, h => simp [attrValue] at h

theorem getElem?_split {α : Type} {l : List α} {p : Nat} {a : α} (h : l[p]? = some a) :
    ∃ pre post, l = pre ++ a :: post ∧ pre.length = p := by
  obtain ⟨hp, rfl⟩ := List.getElem?_eq_some_iff.mp h
  exact ⟨l.take p, l.drop (p + 1), by rw [List.getElem_cons_drop, List.take_append_drop], by simp; omega⟩

theorem values_length {env : Env} {all : List Field} {b : Body} {earlier : List Nat} {fs : List Field} {vs : List Val}
    (h : fieldsValue env all b earlier fs = some vs) : vs.length = fs.length := by
  induction fs generalizing earlier vs with
  | nil => simp only [fieldsValue, Option.some.injEq] at h; subst h; rfl
  | cons f fs ih =>
    simp only [fieldsValue] at h
    split at h
    · rename_i v vs' hv hvs
      cases h
      simp [ih hvs]
    · cases h

theorem structValue_good {env : Env} (hst : TextsStable env) (hd : DefaultsOk env) {i : Nat} {b : Body} {v : Val}
    (hg : GoodKids env b.kids) (h : structValue env (env.strct i).fields b = some v) : GoodVal env (.strct i) v := by
  obtain ⟨vs, hvs, rfl⟩ := Option.map_eq_some_iff.mp h
  have hget : ∀ (p : Nat) (f : Field) (v : Val), (env.strct i).fields[p]? = some f → vs[p]? = some v →
      f ∈ (env.strct i).fields ∧ ∃ earlier, fieldValue env (env.strct i).fields b earlier f = some v := by
    intro p f v hf hv
    obtain ⟨pre, post, h1, h2⟩ := getElem?_split hf
    have h3 := hvs
    generalize hall : (env.strct i).fields = all at h3
    have h4 : fieldsValue env all b [] (pre ++ f :: post) = some vs := by rw [← h1, hall]; exact h3
    have := (fieldsValue_get env all b [] pre f post vs h4).1
    rw [h2, hv] at this
    exact ⟨List.mem_of_getElem? (hall ▸ hf), _, this⟩
  have hlen := values_length hvs
  have hel : ∀ (p : Nat) (f : Field) (s : Slot) (v : Val), (env.strct i).fields[p]? = some f → vs[p]? = some v → f.kind = .element s →
      CardOk s.card v ∧ (valuesOf s.card v = [] → f.default.or (slotAbsent s) = some v) ∧ ∀ w ∈ valuesOf s.card v, GoodVal env s.ty w := by
    intro p f s v hf hv hk
    obtain ⟨hm, ea, h⟩ := hget p f v hf hv
    simp only [fieldValue, hk] at h
    rcases slotValue_good (hg.sub fun _ h => (List.mem_filter.mp h).1) (fun t ht => hst.elems i f s t hm hk ht) h with ⟨-, h2⟩ | ⟨h1, h2, h3⟩
    · cases hdf : f.default with
      | some d =>
        rw [hdf] at h2
        simp only [Option.some_or, Option.some.injEq] at h2
        subst h2
        obtain ⟨h4, h5⟩ := hd.elems i f s d hm hk hdf
        exact ⟨h4, fun _ => by simp, h5⟩
      | none =>
        rw [hdf] at h2
        simp only [Option.none_or] at h2
        unfold slotAbsent at h2
        cases hc : s.card with
        | one => simp [hc] at h2
        | opt =>
          simp [hc] at h2
          subst h2
          exact ⟨⟨_, rfl⟩, fun _ => by simp [slotAbsent, hc], by simp [valuesOf]⟩
        | many =>
          simp [hc] at h2
          subst h2
          exact ⟨⟨_, rfl⟩, fun _ => by simp [slotAbsent, hc], by simp [valuesOf]⟩
    · exact ⟨h1, fun h => absurd h h2, h3⟩
  have hat : ∀ (p : Nat) (f : Field) (v : Val) o t, (env.strct i).fields[p]? = some f → vs[p]? = some v → f.kind = .attribute o t →
      Shape (.attribute o t) v ∧ AttrReadable f o t v := by
    intro p f v o t hf hv hk
    obtain ⟨hm, ea, h⟩ := hget p f v hf hv
    simp only [fieldValue, hk] at h
    exact attrValue_good (hst.attrs i f o t hm hk) (fun d hdf => hd.attrs i f o t d hm hk hdf) h
  have hfl : ∀ (p : Nat) (f : Field) (e : Nat) (v : Val), (env.strct i).fields[p]? = some f → vs[p]? = some v →
      f.kind = .flatten e → GoodVal env (.enm e) v := by
    intro p f e v hf hv hk
    obtain ⟨hm, ea, h⟩ := hget p f v hf hv
    simp only [fieldValue, hk] at h
    exact enumValue_good hst (hg.sub fun k hk => strangers_mem k (past_mem env _ _ k hk)) h
  refine ⟨.strct hlen ?_ ?_ ?_, .strct hlen ?_ ?_ ?_ ?_⟩
  · intro p f v hf hv
    cases hk : f.kind with
    | element s => exact (hel p f s v hf hv hk).1
    | «attribute» o t => exact (hat p f v o t hf hv hk).1
    | flatten e => trivial
    | text t =>
      obtain ⟨hm, ea, h⟩ := hget p f v hf hv
      simp [fieldValue, hk] at h
  · exact fun p f s v w hf hv hk hw => ((hel p f s v hf hv hk).2.2 w hw).1
  · exact fun p f e v hf hv hk => (hfl p f e v hf hv hk).1
  · exact fun p f v o t hf hv hk => (hat p f v o t hf hv hk).2
  · exact fun p f s v hf hv hk => ⟨(hel p f s v hf hv hk).1, (hel p f s v hf hv hk).2.1⟩
  · exact fun p f s v w hf hv hk hw => ((hel p f s v hf hv hk).2.2 w hw).2
  · exact fun p f e v hf hv hk => (hfl p f e v hf hv hk).2

theorem bodyValue_good {env : Env} (hst : TextsStable env) (hd : DefaultsOk env) {b : Body} (hg : GoodKids env b.kids)
    (hb : Blank b.text → b.text = "") {ty : Ty} {v : Val} (hty : ∀ t, ty = .text t → Stable t) (h : bodyValue env b ty = some v) :
    GoodVal env ty v := by
  cases ty with
  | text t =>
    simp only [bodyValue] at h
    split at h
    · split at h
      · rename_i tv htv
        cases h
        obtain ⟨s', h1, h2, h3⟩ := hty t rfl _ _ htv
        refine ⟨.text (by simp [h1]), .text h1 ?_⟩
        unfold visible
        split
        · rename_i hbl
          rw [hb (h3 hbl)] at htv
          exact htv
        · exact h2
      · cases h
    · cases h
  | strct i => exact structValue_good hst hd hg h
  | enm i => exact enumValue_good hst hg h

theorem kids_good {env : Env} (hst : TextsStable env) (hd : DefaultsOk env) (f : Forest) (h : TextVisible f) : GoodKids env (kids env f) := by
  induction f with
  | nil => intro k hk; simp [kids] at hk
  | elem n a ns p ch ep rest ih1 ih2 =>
    obtain ⟨h1, h2, h3⟩ := h
    intro k hk
    simp only [kids, List.mem_cons] at hk
    rcases hk with rfl | hk
    · intro ty v hty hv
      exact bodyValue_good hst hd (b := { attrs := a, kids := kids env ch, text := ch.text }) (ih1 h2) h1 hty hv
    · exact ih2 h3 k hk
  | chars s c p rest ih => exact ih h
  | misc m p rest ih => exact ih h

theorem elem_good {env : Env} (hst : TextsStable env) (hd : DefaultsOk env) (x : Elem) (h : x.TextVisible) {ty : Ty} {v : Val}
    (hty : ∀ t, ty = .text t → Stable t) (hv : bodyValue env (x.body env) ty = some v) : HasTy env ty v ∧ Readable env ty v :=
  bodyValue_good hst hd (b := x.body env) (kids_good hst hd _ h.2) h.1 hty hv

end SX
