import Verif.Spec.Evolve
import Verif.Proof.OpenBlanket

/-
Lemmas on types that change (C82).
-/
namespace SX.Open
open Spec Spec.Open

variable {σ σ' τ τ' α α' β β' : Type}

theorem card_fill (V : Visitor σ) (D : Deser σ β) (c : Multi) (here : List StackElem) (xs : List Elem) (r : Option (c.Ty β)) :
    fill V here (c.impl D) none xs = some r ↔
      xs = [] ∧ r = none ∨ xs ≠ [] ∧ ∃ v, r = some v ∧ Rowwise (Spec.Open.Reads V D here) xs (c.values v) := by
  cases c with
  | one =>
    refine (fill_one V D here xs r).trans (or_congr Iff.rfl ⟨?_, ?_⟩)
    · rintro ⟨y, w, rfl, rfl, h⟩
      exact ⟨by simp, w, rfl, .cons h .nil⟩
    · rintro ⟨-, v, rfl, h⟩
      cases h with
      | cons h t => cases t; exact ⟨_, v, rfl, rfl, h⟩
  | opt =>
    refine (fill_opt V D here xs r).trans (or_congr Iff.rfl ⟨?_, ?_⟩)
    · rintro ⟨y, w, rfl, rfl, h⟩
      exact ⟨by simp, some w, rfl, .cons h .nil⟩
    · rintro ⟨hx, v, rfl, h⟩
      cases v with
      | none => cases h; exact absurd rfl hx
      | some w =>
        cases h with
        | cons h t => cases t; exact ⟨_, w, rfl, rfl, h⟩
  | vec =>
    refine (fill_vec V D here xs r).trans (or_congr Iff.rfl ⟨?_, ?_⟩)
    · rintro ⟨hx, w, rfl, h⟩
      exact ⟨hx, w, rfl, h⟩
    · rintro ⟨hx, v, rfl, h⟩
      exact ⟨hx, v, rfl, h⟩

/-- An element field of type `T`, `Option<T>` or `Vec<T>`, with a default or without. -/
theorem gets_card {V : Visitor σ} {D : Deser σ β} {c : Multi} {inj : c.Ty β → α} {get : α → Option (c.Ty β)} (hg : ∀ b, get (inj b) = some b)
    {here : List StackElem} {x : Elem} {nm : DName} {df : Option (Ret Empty α)} {v : α} :
    Gets V here x (⟨nm, .element ((c.impl D).into inj get), df⟩ : OField σ τ α) v ↔
      x.children.childrenNamed nm.expanded = [] ∧ absent (⟨nm, .element ((c.impl D).into inj get), df⟩ : OField σ τ α) = .ok v ∨
      x.children.childrenNamed nm.expanded ≠ [] ∧
        ∃ w, v = inj w ∧ Rowwise (Spec.Open.Reads V D here) (x.children.childrenNamed nm.expanded) (c.values w) := by
  unfold Gets
  simp only
  rw [show (none : Option α) = (none : Option (c.Ty β)).map inj from rfl]
  simp only [fill_into V here _ inj get hg]
  constructor
  · rintro ⟨r, h, h'⟩
    obtain ⟨r, hr, rfl⟩ := Option.map_eq_some_iff.mp h
    rcases (card_fill V D c here _ r).mp hr with ⟨hx, rfl⟩ | ⟨hx, w, rfl, hw⟩
    · rcases h' with h' | ⟨-, h'⟩
      · cases h'
      · exact .inl ⟨hx, h'⟩
    · rcases h' with h' | ⟨h', -⟩
      · cases h'
        exact .inr ⟨hx, w, rfl, hw⟩
      · cases h'
  · rintro (⟨hx, h⟩ | ⟨hx, w, rfl, hw⟩)
    · exact ⟨none, by rw [(card_fill V D c here _ none).mpr (.inl ⟨hx, rfl⟩)]; rfl, .inr ⟨rfl, h⟩⟩
    · exact ⟨some (inj w), by rw [(card_fill V D c here _ (some w)).mpr (.inr ⟨hx, w, rfl, hw⟩)]; rfl, .inl rfl⟩

theorem rowwise_upgrade {A : Elem → β → Prop} {A' : Elem → β' → Prop} {ok : Elem → Prop} {R : β → β' → Prop}
    (h : ∀ y v, ok y → A y v → ∃ v', A' y v' ∧ R v v') {xs : List Elem} {l : List β} (hxs : ∀ y ∈ xs, ok y) (hl : Rowwise A xs l) :
    ∃ l', Rowwise A' xs l' ∧ Rowwise R l l' := by
  induction hl with
  | nil => exact ⟨[], .nil, .nil⟩
  | @cons y v xs l hy _ ih =>
    obtain ⟨v', hv, hr⟩ := h y v (hxs y List.mem_cons_self) hy
    obtain ⟨l', hl, hrl⟩ := ih fun z hz => hxs z (List.mem_cons_of_mem _ hz)
    exact ⟨v' :: l', .cons hv hl, .cons hr hrl⟩

/-- A value of the wider type with the same values in it. -/
theorem card_widen {c c' : Multi} (hw : c.Wider c') {w : c.Ty β} {R : β → β' → Prop} {l' : List β'} (h : Rowwise R (c.values w) l')
    (hne : l' ≠ []) : ∃ w' : c'.Ty β', c'.values w' = l' := by
  have hone : ∀ z, l' = [z] → ∃ w' : c'.Ty β', c'.values w' = l' := by
    rintro z rfl
    cases c' with
    | one => exact ⟨z, rfl⟩
    | opt => exact ⟨some z, rfl⟩
    | vec => exact ⟨[z], rfl⟩
  cases c with
  | one =>
    cases h with
    | cons h t => cases t; exact hone _ rfl
  | opt =>
    cases w with
    | none => cases h; exact absurd rfl hne
    | some w =>
      cases h with
      | cons h t => cases t; exact hone _ rfl
  | vec =>
    cases c' with
    | one => exact hw.elim
    | opt => exact hw.elim
    | vec => exact ⟨l', rfl⟩

/-! ### Structs without flattened fields -/

theorem newFlats_nil {fields : List (OField σ τ α)} (h : NoFlatten fields) : newFlats fields = [] := by
  induction fields with
  | nil => rfl
  | cons f fs ih =>
    have ih' := ih fun g hg => h g (List.mem_cons_of_mem _ hg)
    rw [newFlats]
    split
    · next raw hk => exact absurd hk (h f List.mem_cons_self raw)
    · exact ih'

theorem flatAttrs_nil (fields : List (OField σ τ α)) (as : List XAttr) : flatAttrs fields as [] = some [] := by
  induction as with
  | nil => rfl
  | cons a as ih =>
    rw [flatAttrs]
    split
    · exact ih
    · simp only [offerAttr]
      exact ih

theorem flatContent_nil (V : Visitor σ) (here : List StackElem) (fields : List (OField σ τ α)) (F : Forest) :
    flatContent V here fields F [] = some [] := by
  induction F with
  | nil => rfl
  | misc _ _ _ ih => simpa only [flatContent] using ih
  | chars _ _ _ _ ih => simpa only [flatContent, offerChars] using ih
  | elem name attrs ns pos ch endPos rest _ ih =>
    rw [flatContent]
    split
    · exact ih
    · simp only [offerElem]
      exact ih

theorem allGet_plain {V : Visitor σ} {here : List StackElem} {x : Elem} {fields : List (OField σ τ α)} (h : NoFlatten fields) {vs : List α} :
    AllGet V here x fields [] vs ↔ Rowwise (Gets V here x) fields vs := by
  induction fields generalizing vs with
  | nil =>
    constructor
    · intro h; cases h; exact .nil
    · intro h; cases h; exact .nil
  | cons f fs ih =>
    have ih' := fun vs => @ih (fun g hg => h g (List.mem_cons_of_mem _ hg)) vs
    constructor
    · intro h
      cases h with
      | plain hv h => exact .cons hv ((ih' _).mp h)
    · intro h
      cases h with
      | cons hv h => exact .plain hv ((ih' _).mpr h)

/-- A struct without flattened fields is read exactly if each field gets its value. -/
theorem structRead_plain {V : Visitor σ} {path : List StackElem} {fields : List (OField σ τ α)} (h : NoFlatten fields) {x : Elem} {vs : List α} :
    StructRead V path fields x vs ↔ Rowwise (Gets V (path ++ [{ name := x.name, pos := x.pos }]) x) fields vs := by
  unfold StructRead
  rw [newFlats_nil h, flatAttrs_nil]
  constructor
  · rintro ⟨l, l', hl, hl', hg⟩
    cases hl
    rw [flatContent_nil] at hl'
    cases hl'
    exact (allGet_plain h).mp hg
  · intro hg
    exact ⟨[], [], rfl, flatContent_nil _ _ _ _, (allGet_plain h).mpr hg⟩

theorem rowwise_getElem {A B : Type} {R : A → B → Prop} {l : List A} {m : List B} (h : Rowwise R l m) :
    l.length = m.length ∧ ∀ (i : Nat) a b, l[i]? = some a → m[i]? = some b → R a b := by
  induction h with
  | nil => simp
  | @cons a b l m h _ ih =>
    refine ⟨by simp [ih.1], fun i a' b' ha hb => ?_⟩
    cases i with
    | zero => simp at ha hb; subst ha hb; exact h
    | succ i => simp at ha hb; exact ih.2 i a' b' ha hb

theorem rowwise_collect {A B : Type} {R : A → B → Prop} {Q : Nat → B → Prop} {l : List A} (k : Nat)
    (h : ∀ (j : Nat) a, l[j]? = some a → ∃ b, R a b ∧ Q (k + j) b) : ∃ m, Rowwise R l m ∧ ∀ (j : Nat) b, m[j]? = some b → Q (k + j) b := by
  induction l generalizing k with
  | nil => exact ⟨[], .nil, by simp⟩
  | cons a l ih =>
    obtain ⟨b, hb, hq⟩ := h 0 a rfl
    obtain ⟨m, hm, hqm⟩ := ih (k + 1) fun j a' ha => by
      obtain ⟨b, hb, hq⟩ := h (j + 1) a' (by simpa using ha)
      exact ⟨b, hb, by rwa [show k + 1 + j = k + (j + 1) by omega]⟩
    refine ⟨b :: m, .cons hb hm, fun j b' hj => ?_⟩
    cases j with
    | zero => simp at hj; subst hj; exact hq
    | succ j =>
      simp at hj
      rw [show k + (j + 1) = k + 1 + j by omega]
      exact hqm j b' hj

/-! ### Children are smaller -/

theorem child_smaller {F : Forest} {y : Elem} (h : y ∈ F.children) : elementsIn y.children < elementsIn F := by
  induction F with
  | nil => simp [Forest.children] at h
  | misc _ _ _ ih => exact ih h
  | chars _ _ _ _ ih => exact ih h
  | elem name attrs ns pos ch endPos rest _ ih =>
    rcases List.mem_cons.mp h with rfl | h
    · simp only [elementsIn]; omega
    · have := ih h
      simp only [elementsIn]; omega

/-! ### A field is added to a struct with flattened fields -/

theorem newFlats_insert {l r : List (OField σ τ α)} {f : OField σ τ α} (hf : ∀ raw, f.kind ≠ .flatten raw) : newFlats (l ++ f :: r) = newFlats (l ++ r) := by
  induction l with
  | nil =>
    show newFlats (f :: r) = newFlats r
    rw [newFlats]
    split
    · next raw hk => exact absurd hk (hf raw)
    · rfl
  | cons g l ih =>
    show newFlats (g :: (l ++ f :: r)) = newFlats (g :: (l ++ r))
    rw [newFlats, newFlats, ih]

theorem flatAttrs_congr {fields fields' : List (OField σ τ α)} {as : List XAttr}
    (h : ∀ a ∈ as, IsAttribute fields a.name.expanded ↔ IsAttribute fields' a.name.expanded) (flats : List (Raw σ τ α × τ)) :
    flatAttrs fields as flats = flatAttrs fields' as flats := by
  induction as generalizing flats with
  | nil => rfl
  | cons a as ih =>
    have ih' := ih fun b hb => h b (List.mem_cons_of_mem _ hb)
    rw [flatAttrs, flatAttrs]
    by_cases ha : IsAttribute fields a.name.expanded
    · rw [if_pos ha, if_pos ((h a List.mem_cons_self).mp ha), ih']
    · rw [if_neg ha, if_neg fun hb => ha ((h a List.mem_cons_self).mpr hb)]
      cases offerAttr a.name.expanded a.value flats with
      | none => rfl
      | some flats => exact ih' flats

theorem flatContent_congr {V : Visitor σ} {here : List StackElem} {fields fields' : List (OField σ τ α)} {F : Forest}
    (h : ∀ y ∈ F.children, IsElement fields y.name.expanded ↔ IsElement fields' y.name.expanded) (flats : List (Raw σ τ α × τ)) :
    flatContent V here fields F flats = flatContent V here fields' F flats := by
  induction F generalizing flats with
  | nil => rfl
  | misc _ _ _ ih => simpa only [flatContent] using ih h flats
  | chars s _ pos _ ih =>
    simp only [flatContent]
    cases offerChars pos s flats with
    | none => rfl
    | some flats => exact ih h flats
  | elem name attrs ns pos ch endPos rest _ ih =>
    have ih' := ih fun y hy => h y (List.mem_cons_of_mem _ hy)
    have hn := h ⟨name, attrs, ns, pos, ch, endPos⟩ List.mem_cons_self
    rw [flatContent, flatContent]
    by_cases ha : IsElement fields name.expanded
    · rw [if_pos ha, if_pos (hn.mp ha), ih']
    · rw [if_neg ha, if_neg fun hb => ha (hn.mpr hb)]
      cases offerElem V here ⟨name, attrs, ns, pos, ch, endPos⟩ flats with
      | none => rfl
      | some flats => exact ih' flats

theorem allGet_insert {V : Visitor σ} {here : List StackElem} {x : Elem} {l r : List (OField σ τ α)} {f : OField σ τ α} (hf : ∀ raw, f.kind ≠ .flatten raw)
    {flats : List (Raw σ τ α × τ)} {a b : List α} {v : α} (ha : a.length = l.length) :
    AllGet V here x (l ++ f :: r) flats (a ++ v :: b) ↔ AllGet V here x (l ++ r) flats (a ++ b) ∧ Gets V here x f v := by
  induction l generalizing flats a with
  | nil =>
    rw [List.length_eq_zero_iff.mp ha]
    constructor
    · intro h
      cases h with
      | plain hv h => exact ⟨h, hv⟩
      | flat hk => exact absurd hk (hf _)
    · rintro ⟨h, hv⟩
      exact .plain hv h
  | cons g l ih =>
    cases a with
    | nil => cases ha
    | cons w a =>
      have ih' := fun flats => @ih flats a (by simpa using ha)
      constructor
      · intro h
        cases h with
        | plain hv h => exact ⟨.plain hv ((ih' _).mp h).1, ((ih' _).mp h).2⟩
        | flat hk hf' ho h => exact ⟨.flat hk hf' ho ((ih' _).mp h).1, ((ih' _).mp h).2⟩
      · rintro ⟨h, hg⟩
        cases h with
        | plain hv h => exact .plain hv ((ih' _).mpr ⟨h, hg⟩)
        | flat hk hf' ho h => exact .flat hk hf' ho ((ih' _).mpr ⟨h, hg⟩)

theorem structRead_insert {V : Visitor σ} {path : List StackElem} {l r : List (OField σ τ α)} {f : OField σ τ α} {x : Elem} (hx : NotThere f x)
    {a b : List α} {v : α} (ha : a.length = l.length) :
    StructRead V path (l ++ f :: r) x (a ++ v :: b) ↔
      StructRead V path (l ++ r) x (a ++ b) ∧ Gets V (path ++ [{ name := x.name, pos := x.pos }]) x f v := by
  have hf : ∀ raw, f.kind ≠ .flatten raw := by
    intro raw hk
    unfold NotThere at hx
    rw [hk] at hx
    exact hx
  have h1 : ∀ c ∈ x.attrs, IsAttribute (l ++ f :: r) c.name.expanded ↔ IsAttribute (l ++ r) c.name.expanded := by
    intro c hc
    constructor
    · rintro ⟨g, hg, ⟨impl, hk⟩, hn⟩
      refine ⟨g, ?_, ⟨impl, hk⟩, hn⟩
      rcases List.mem_append.mp hg with hg | hg
      · exact List.mem_append_left _ hg
      · rcases List.mem_cons.mp hg with rfl | hg
        · unfold NotThere at hx
          rw [hk] at hx
          exact absurd hn.symm (hx c hc)
        · exact List.mem_append_right _ hg
    · rintro ⟨g, hg, h⟩
      refine ⟨g, ?_, h⟩
      rcases List.mem_append.mp hg with hg | hg
      · exact List.mem_append_left _ hg
      · exact List.mem_append_right _ (List.mem_cons_of_mem _ hg)
  have h2 : ∀ y ∈ x.children.children, IsElement (l ++ f :: r) y.name.expanded ↔ IsElement (l ++ r) y.name.expanded := by
    intro y hy
    constructor
    · rintro ⟨g, hg, ⟨impl, hk⟩, hn⟩
      refine ⟨g, ?_, ⟨impl, hk⟩, hn⟩
      rcases List.mem_append.mp hg with hg | hg
      · exact List.mem_append_left _ hg
      · rcases List.mem_cons.mp hg with rfl | hg
        · unfold NotThere at hx
          rw [hk] at hx
          exact absurd (List.filter_eq_nil_iff.mp hx y hy) (by simp [hn])
        · exact List.mem_append_right _ hg
    · rintro ⟨g, hg, h⟩
      refine ⟨g, ?_, h⟩
      rcases List.mem_append.mp hg with hg | hg
      · exact List.mem_append_left _ hg
      · exact List.mem_append_right _ (List.mem_cons_of_mem _ hg)
  unfold StructRead
  rw [newFlats_insert hf, flatAttrs_congr h1]
  simp only [flatContent_congr h2, allGet_insert hf ha]
  constructor
  · rintro ⟨l1, l2, h1, h2, h3, h4⟩
    exact ⟨⟨l1, l2, h1, h2, h3⟩, h4⟩
  · rintro ⟨⟨l1, l2, h1, h2, h3⟩, h4⟩
    exact ⟨l1, l2, h1, h2, h3, h4⟩

end SX.Open
