import Verif.Proof.DeriveStruct
import Verif.Spec.DeriveForms

/-
Consequences of the correspondence: what the value of an element depends on.
-/
namespace SX
open Spec

/-! ## Only names, values and text matter -/

theorem expanded_plain (n : QName) : (plainName n).expanded = n.expanded := rfl

theorem canon_name (k : Kid) : k.canon.name = k.name := expanded_plain _

theorem named_canon (n : EName) (ks : List Kid) : named n (ks.map Kid.canon) = (named n ks).map Kid.canon := by
  simp only [named, List.filter_map]
  rfl

theorem allAs_canon (ty : Ty) (ks : List Kid) : allAs ty (ks.map Kid.canon) = allAs ty ks := by
  induction ks with
  | nil => rfl
  | cons k ks ih =>
    simp only [List.map_cons, allAs, ih]
    rfl

theorem slotValue_canon (s : Slot) (a : Option Val) (ks : List Kid) :
    slotValue s a (ks.map Kid.canon) = slotValue s a ks := by
  cases ks with
  | nil => rfl
  | cons k ks =>
    have := allAs_canon s.ty (k :: ks)
    simp only [List.map_cons] at this
    simp only [List.map_cons, slotValue, this, List.isEmpty_map]
    rfl

theorem choices_canon (d : EnumDef) (ks : List Kid) :
    choices d (ks.map Kid.canon) = (choices d ks).map fun c => (c.1, c.2.canon) := by
  induction ks with
  | nil => rfl
  | cons k ks ih =>
    rw [List.map_cons, show k :: ks = [k] ++ ks from rfl, show k.canon :: ks.map Kid.canon = [k.canon] ++ ks.map Kid.canon from rfl,
      choices_append, choices_append, List.map_append, ih]
    congr 1
    cases h : variantOf d k.name with
    | none => rw [choices_none d k h, choices_none d k.canon h]; rfl
    | some i => rw [choices_some d k h, choices_some d k.canon h]; rfl

theorem enumValue_canon (d : EnumDef) (ks : List Kid) : enumValue d (ks.map Kid.canon) = enumValue d ks := by
  unfold enumValue
  rw [choices_canon]
  cases choices d ks with
  | nil => rfl
  | cons c rest =>
    simp only [List.map_cons, List.all_map, List.map_map]
    have h : ∀ s, slotValue s none (c.2.canon :: List.map (Prod.snd ∘ fun c : Nat × Kid => (c.1, c.2.canon)) rest) =
        slotValue s none (c.2 :: rest.map Prod.snd) := by
      intro s
      rw [← slotValue_canon s none (c.2 :: rest.map Prod.snd)]
      simp only [List.map_cons, List.map_map]
      rfl
    simp only [h]
    rfl

theorem strangers_canon (fields : List Field) (ks : List Kid) :
    strangers fields (ks.map Kid.canon) = (strangers fields ks).map Kid.canon := by
  simp only [strangers, List.filter_map]
  rfl

theorem takeWhile_map' {α β : Type} (p : β → Bool) (f : α → β) (l : List α) :
    (l.map f).takeWhile p = (l.takeWhile (fun a => p (f a))).map f := by
  induction l with
  | nil => rfl
  | cons a l ih =>
    simp only [List.map_cons, List.takeWhile_cons]
    split <;> simp [ih]

theorem past_canon (env : Env) (es : List Nat) (ks : List Kid) :
    past env es (ks.map Kid.canon) = (past env es ks).map Kid.canon := by
  induction es generalizing ks with
  | nil => rfl
  | cons e es ih =>
    simp only [past, takeWhile_map', ih]
    rfl

theorem attrsNamed_canon (n : EName) (l : List XAttr) :
    attrsNamed n (l.map XAttr.plain) = (attrsNamed n l).map XAttr.plain := by
  simp only [attrsNamed, List.filter_map]
  rfl

theorem attrValue_canon (o : Bool) (t : TextTy) (a : Option Val) (l : List XAttr) :
    attrValue o t a (l.map XAttr.plain) = attrValue o t a l := by
  rcases l with _ | ⟨x, _ | ⟨y, l⟩⟩ <;> rfl

def Spec.Body.canon (b : Body) : Body := { attrs := b.attrs.map XAttr.plain, kids := b.kids.map Kid.canon, text := b.text }

theorem fieldValue_canon (env : Env) (all : List Field) (b : Body) (earlier : List Nat) (f : Field) :
    fieldValue env all b.canon earlier f = fieldValue env all b earlier f := by
  unfold fieldValue Body.canon
  split
  · simp only [named_canon, slotValue_canon]
  · simp only [attrsNamed_canon, attrValue_canon]
  · simp only [strangers_canon, past_canon, enumValue_canon]
  · rfl

theorem fieldsValue_congr (env : Env) (all : List Field) (b b' : Body) (earlier : List Nat) (fields : List Field)
    (h : ∀ pre f post, fields = pre ++ f :: post →
      fieldValue env all b (earlier ++ flatTypes pre) f = fieldValue env all b' (earlier ++ flatTypes pre) f) :
    fieldsValue env all b earlier fields = fieldsValue env all b' earlier fields := by
  induction fields generalizing earlier with
  | nil => rfl
  | cons f fields ih =>
    unfold fieldsValue
    have h0 := h [] f fields rfl
    simp only [flatTypes, List.append_nil] at h0
    rw [h0, ih]
    intro pre g post hg
    have := h (f :: pre) g post (by rw [hg]; rfl)
    rw [show f :: pre = [f] ++ pre from rfl, flatTypes_append, ← List.append_assoc] at this
    exact this

theorem bodyValue_canon (env : Env) (b : Body) (ty : Ty) : bodyValue env b.canon ty = bodyValue env b ty := by
  cases ty with
  | text t =>
    simp only [bodyValue, Body.canon]
    cases b.kids <;> rfl
  | strct i =>
    simp only [bodyValue, structValue]
    rw [fieldsValue_congr env _ b.canon b [] _ fun pre f post _ => fieldValue_canon env _ b _ f]
  | enm i => exact enumValue_canon _ _

theorem bodyValue_congr (env : Env) (b b' : Body) (ty : Ty) (h : b.canon = b'.canon) :
    bodyValue env b ty = bodyValue env b' ty := by
  rw [← bodyValue_canon env b, h, bodyValue_canon]

theorem text_plain (f : Forest) : f.plain.text = f.text := by
  induction f with
  | nil => rfl
  | elem n a ns p ch ep rest _ ih => exact ih
  | chars s c p rest ih => simp only [Forest.plain, Forest.text, ih]
  | misc m p rest ih => exact ih

theorem attrs_plain (l : List XAttr) : (l.map XAttr.plain).map XAttr.plain = l.map XAttr.plain := by
  rw [List.map_map]
  congr 1

theorem kids_plain (env : Env) (f : Forest) : (kids env f.plain).map Kid.canon = (kids env f).map Kid.canon := by
  induction f with
  | nil => rfl
  | elem n a ns p ch ep rest ihc ihr =>
    simp only [Forest.plain, kids, List.map_cons, ihr]
    congr 1
    unfold Kid.canon
    congr 1
    funext ty
    apply bodyValue_congr
    simp only [Body.canon, ihc, text_plain, attrs_plain]
  | chars s c p rest ih => exact ih
  | misc m p rest ih => exact ih

theorem body_plain (env : Env) (x : Elem) : (x.plain.body env).canon = (x.body env).canon := by
  simp only [Elem.body, Elem.plain, Body.canon, kids_plain, text_plain, attrs_plain]

theorem kid_plain (env : Env) (x : Elem) : (Elem.kid env x.plain).canon = (Elem.kid env x).canon := by
  unfold Kid.canon
  congr 1
  funext ty
  exact bodyValue_congr env _ _ ty (body_plain env x)

/-! ## Enums by name -/

theorem variantOf_iff (env : Env) (hok : EnvOk env) (e : Nat) (n : EName) (j : Nat) :
    variantOf (env.enm e) n = some j ↔ ∃ v, (env.enm e).variants[j]? = some v ∧ v.name.expanded = n := by
  constructor
  · intro h
    obtain ⟨v, h1, -, h2⟩ := variantOf_some h
    exact ⟨v, h1, h2⟩
  · rintro ⟨v, h1, h2⟩
    cases hv : variantOf (env.enm e) n with
    | none => exact absurd h2 (variantOf_none hv v (List.mem_of_getElem? h1) (hok.noSkip e v (List.mem_of_getElem? h1)))
    | some i =>
      obtain ⟨w, h3, -, h4⟩ := variantOf_some hv
      rw [hok.variants e i j w v h3 h1 (by rw [h4, h2])]

theorem choices_all (env : Env) (hok : EnvOk env) (e j : Nat) (v : Variant) (hv : (env.enm e).variants[j]? = some v)
    (ks : List Kid) (h : ∀ c ∈ choices (env.enm e) ks, c.1 = j) :
    (choices (env.enm e) ks).map Prod.snd = named v.name.expanded ks := by
  induction ks with
  | nil => rfl
  | cons k ks ih =>
    rw [show k :: ks = [k] ++ ks from rfl, choices_append, named_append, List.map_append]
    rw [show k :: ks = [k] ++ ks from rfl, choices_append] at h
    rw [ih fun c hc => h c (List.mem_append_right _ hc)]
    congr 1
    cases hk : variantOf (env.enm e) k.name with
    | none =>
      rw [choices_none _ _ hk, named_ne]
      · rfl
      · intro heq
        have := (variantOf_iff env hok e k.name j).mpr ⟨v, hv, heq⟩
        rw [hk] at this
        simp at this
    | some i =>
      rw [choices_some _ _ hk] at h ⊢
      have hij : i = j := h (i, k) (by simp)
      subst hij
      obtain ⟨w, h1, h2⟩ := (variantOf_iff env hok e k.name i).mp hk
      rw [h1] at hv
      simp only [Option.some.injEq] at hv
      subst hv
      rw [h2, named_eq]
      rfl

/-- The value of an enum, by the names of the children. -/
theorem enumValue_iff (env : Env) (hok : EnvOk env) (e : Nat) (ks : List Kid) (v : Val) :
    enumValue (env.enm e) ks = some v ↔ ∃ (j : Nat) (var : Variant), (env.enm e).variants[j]? = some var ∧
      named var.name.expanded ks ≠ [] ∧
      (∀ w ∈ (env.enm e).variants, named w.name.expanded ks ≠ [] → w.name.expanded = var.name.expanded) ∧
      match var.slot with
      | none => v = .enm j none
      | some s => ∃ p, slotValue s none (named var.name.expanded ks) = some p ∧ v = .enm j (some p) := by
  have hmem : ∀ c ∈ choices (env.enm e) ks, c.2 ∈ ks ∧ variantOf (env.enm e) c.2.name = some c.1 := by
    intro c hc
    obtain ⟨k, h1, h2⟩ := List.mem_filterMap.mp hc
    obtain ⟨i, h3, h4⟩ := Option.map_eq_some_iff.mp h2
    subst h4
    exact ⟨h1, h3⟩
  have hmem' : ∀ k ∈ ks, ∀ i, variantOf (env.enm e) k.name = some i → (i, k) ∈ choices (env.enm e) ks := by
    intro k hk i hi
    exact List.mem_filterMap.mpr ⟨k, hk, by simp [hi]⟩
  have hne : ∀ n, named n ks ≠ [] ↔ ∃ k ∈ ks, k.name = n := by
    intro n
    simp [named, List.filter_eq_nil_iff]
  constructor
  · intro h
    unfold enumValue at h
    split at h
    · simp at h
    · rename_i j k rest hc
      split at h
      · rename_i hall
        have hallj : ∀ c ∈ choices (env.enm e) ks, c.1 = j := by
          intro c hcm
          rw [hc] at hcm
          rcases List.mem_cons.mp hcm with rfl | hcm
          · rfl
          · simpa using List.all_eq_true.mp hall c hcm
        split at h
        · simp at h
        · rename_i var hvar
          have hk := hmem (j, k) (by rw [hc]; simp)
          obtain ⟨var', hvar', hname⟩ := (variantOf_iff env hok e k.name j).mp hk.2
          rw [hvar] at hvar'
          simp only [Option.some.injEq] at hvar'
          subst hvar'
          refine ⟨j, var, hvar, (hne _).mpr ⟨k, hk.1, hname.symm⟩, ?_, ?_⟩
          · intro w hw hwn
            obtain ⟨k', hk', hkn⟩ := (hne _).mp hwn
            obtain ⟨q, hq⟩ := List.getElem?_of_mem hw
            have h1 := (variantOf_iff env hok e k'.name q).mpr ⟨w, hq, hkn.symm⟩
            have h2 := hallj _ (hmem' k' hk' q h1)
            simp only at h2
            subst h2
            rw [hq] at hvar
            simp only [Option.some.injEq] at hvar
            rw [hvar]
          · have hn := choices_all env hok e j var hvar ks hallj
            rw [hc] at hn
            simp only [List.map_cons] at hn
            split at h
            · rename_i hs
              simp only [Option.some.injEq] at h
              rw [hs]
              exact h.symm
            · rename_i s hs
              obtain ⟨p, h1, h2⟩ := Option.map_eq_some_iff.mp h
              rw [hs]
              exact ⟨p, by rw [← hn]; exact h1, h2.symm⟩
      · simp at h
  · rintro ⟨j, var, hvar, h1, h2, h3⟩
    have hallj : ∀ c ∈ choices (env.enm e) ks, c.1 = j := by
      intro c hc
      obtain ⟨hk, hv⟩ := hmem c hc
      obtain ⟨w, hw, hwn⟩ := (variantOf_iff env hok e c.2.name c.1).mp hv
      have := h2 w (List.mem_of_getElem? hw) ((hne _).mpr ⟨c.2, hk, hwn.symm⟩)
      exact hok.variants e _ _ _ _ hw hvar this
    have hn := choices_all env hok e j var hvar ks hallj
    unfold enumValue
    cases hc : choices (env.enm e) ks with
    | nil =>
      rw [hc] at hn
      exact absurd hn.symm h1
    | cons c rest =>
      have hcj := hallj c (by rw [hc]; simp)
      have hall : rest.all (fun c => c.1 == j) = true := by
        rw [List.all_eq_true]
        intro c' hc'
        simpa using hallj c' (by rw [hc]; simp [hc'])
      rw [hc] at hn
      simp only [List.map_cons] at hn
      simp only [hcj, hall, if_true, hvar]
      cases hs : var.slot with
      | none =>
        rw [hs] at h3
        rw [h3]
      | some s =>
        rw [hs] at h3
        obtain ⟨p, h4, h5⟩ := h3
        simp only
        rw [hn, h4, h5]
        rfl

theorem named_nil_canon {n : EName} {ks ks' : List Kid} (h : (named n ks).map Kid.canon = (named n ks').map Kid.canon) :
    named n ks = [] ↔ named n ks' = [] := by
  constructor
  · intro h1
    rw [h1] at h
    simpa using h.symm
  · intro h1
    rw [h1] at h
    simpa using h

theorem slotValue_canon_eq (s : Slot) (a : Option Val) {ks ks' : List Kid} (h : ks.map Kid.canon = ks'.map Kid.canon) :
    slotValue s a ks = slotValue s a ks' := by
  rw [← slotValue_canon, h, slotValue_canon]

theorem enumValue_named (env : Env) (hok : EnvOk env) (e : Nat) (ks ks' : List Kid)
    (h : ∀ n, (named n ks).map Kid.canon = (named n ks').map Kid.canon) :
    enumValue (env.enm e) ks = enumValue (env.enm e) ks' := by
  have : ∀ ks ks' : List Kid, (∀ n, (named n ks).map Kid.canon = (named n ks').map Kid.canon) → ∀ v,
      enumValue (env.enm e) ks = some v → enumValue (env.enm e) ks' = some v := by
    intro ks ks' h v hv
    rw [enumValue_iff env hok] at hv ⊢
    obtain ⟨j, var, h1, h2, h3, h4⟩ := hv
    refine ⟨j, var, h1, fun hn => h2 ((named_nil_canon (h _)).mpr hn), ?_, ?_⟩
    · intro w hw hn
      exact h3 w hw fun hn' => hn ((named_nil_canon (h _)).mp hn')
    · split
      · rename_i hs
        simpa only [hs] using h4
      · rename_i s hs
        simp only [hs] at h4
        obtain ⟨p, h5, h6⟩ := h4
        exact ⟨p, by rw [← slotValue_canon_eq s none (h _)]; exact h5, h6⟩
  apply Option.ext
  intro v
  exact ⟨this ks ks' h v, this ks' ks (fun n => (h n).symm) v⟩

theorem named_strangers (fields : List Field) (n : EName) (ks : List Kid) :
    named n (strangers fields ks) = if declaredElem fields n then [] else named n ks := by
  unfold named strangers
  rw [List.filter_filter]
  split
  · rename_i h
    rw [List.filter_eq_nil_iff]
    intro k _
    simp only [Bool.and_eq_true, beq_iff_eq, Bool.not_eq_true', not_and, Bool.not_eq_false]
    intro hk
    rw [hk]
    exact h
  · rename_i h
    apply List.filter_congr
    intro k _
    by_cases hk : k.name = n
    · simp [hk, h]
    · simp [hk]

theorem structValue_named (env : Env) (hok : EnvOk env) (fields : List Field) (hone : (flatTypes fields).length ≤ 1) (b b' : Body)
    (ha : b.attrs.map XAttr.plain = b'.attrs.map XAttr.plain)
    (h : ∀ n, (named n b.kids).map Kid.canon = (named n b'.kids).map Kid.canon) :
    structValue env fields b = structValue env fields b' := by
  unfold structValue
  rw [fieldsValue_congr env fields b b' [] fields]
  intro pre f post hf
  unfold fieldValue
  split
  · exact slotValue_canon_eq _ _ (h _)
  · rw [← attrValue_canon, ← attrsNamed_canon, ha, attrsNamed_canon, attrValue_canon]
  · rename_i e hk
    have hpre : flatTypes pre = [] := by
      rw [hf, flatTypes_append] at hone
      have : flatTypes (f :: post) = e :: flatTypes post := by simp [flatTypes, hk]
      rw [this] at hone
      simp only [List.length_append, List.length_cons] at hone
      exact List.length_eq_zero_iff.mp (by omega)
    rw [hpre]
    simp only [List.append_nil, past]
    apply enumValue_named env hok
    intro n
    rw [named_strangers, named_strangers]
    split
    · rfl
    · exact h n
  · rfl

/-! ## Children of a forest -/

theorem kids_children (env : Env) (f : Forest) : kids env f = f.children.map (Elem.kid env) := by
  induction f with
  | nil => rfl
  | elem n a ns p ch ep rest _ ih => simp only [kids, Forest.children, List.map_cons, ih]; rfl
  | chars s c p rest ih => exact ih
  | misc m p rest ih => exact ih

theorem named_children (env : Env) (n : EName) (f : Forest) :
    named n (kids env f) = (f.childrenNamed n).map (Elem.kid env) := by
  rw [kids_children]
  simp only [named, Forest.childrenNamed, List.filter_map]
  rfl

end SX
