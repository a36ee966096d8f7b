import Verif.Spec.Conserve
import Verif.Proof.Copy
import Verif.Spec.Cut

namespace SX.Conserve
open SX.Spec

/-- One by one, these strings are what the text types make of these values. -/
def Told (us : List (TextTy × TVal)) (ss : List String) : Prop := (us.map fun x => x.1.toText x.2) = ss.map some

theorem Told.nil : Told [] [] := rfl

theorem Told.cons {u : TVal} {s : String} {us : List (TextTy × TVal)} {ss : List String} (t : TextTy) (h : t.toText u = some s) (rest : Told us ss) :
    Told ((t, u) :: us) (s :: ss) := by
  simp only [Told, List.map_cons, h] at rest ⊢
  rw [rest]

theorem told_append {us us' : List (TextTy × TVal)} {ss ss' : List String} (h : Told us ss) (h' : Told us' ss') : Told (us ++ us') (ss ++ ss') := by
  simp only [Told, List.map_append] at h h' ⊢
  rw [h, h']

theorem leavesAll_flatMap (env : Env) (ty : Ty) (l : List Val) : leavesAll env ty l = l.flatMap (leaves env ty) := by
  induction l with
  | nil => simp [leavesAll]
  | cons v l ih => simp [leavesAll, ih]

theorem leavesFields_zip (env : Env) (fs : List Field) (l : List Val) :
    leavesFields env fs l = (fs.zip l).flatMap fun x => leaves env (kindTy x.1.kind) x.2 := by
  induction fs generalizing l with
  | nil => simp [leavesFields]
  | cons f fs ih => cases l with
    | nil => simp [leavesFields]
    | cons v l => simp [leavesFields, ih]

/-- The texts in a child element to be. -/
def itemLeaves (env : Env) (x : Item) : List (TextTy × TVal) :=
  match x.value with
  | none => []
  | some (ty, v) => leaves env ty v

/-- The child element to be has a value of its type. -/
def ItemTyped (env : Env) (x : Item) : Prop := ∀ ty v, x.value = some (ty, v) → HasTy env ty v

/-- The texts inside an element to be written. -/
def inside : EForest → List String
  | .nil => []
  | .elem _ as ch rest => as.map Prod.snd ++ inside ch ++ inside rest
  | .chars s rest => s :: inside rest

theorem fieldItems_leaves (env : Env) (s : Slot) (n : EName) (v : Val) (h : CardOk s.card v) :
    (fieldItems s n v).flatMap (itemLeaves env) = leaves env s.ty v := by
  obtain ⟨card, ty⟩ := s
  cases card with
  | one => simp [fieldItems, valuesOf, itemLeaves]
  | opt =>
    obtain ⟨o, rfl⟩ := h
    cases o <;> cases ty <;> simp [fieldItems, valuesOf, itemLeaves, leaves]
  | many =>
    obtain ⟨l, rfl⟩ := h
    cases ty <;> simp [fieldItems, valuesOf, itemLeaves, leaves, leavesAll_flatMap, List.flatMap_map]

theorem variantItems_leaves {env : Env} {i : Nat} {v : Val} (hns : ∀ w ∈ (env.enm i).variants, w.skip = true → w.slot = none) (h : HasTy env (.enm i) v) :
    (variantItems (env.enm i) v).flatMap (itemLeaves env) = leaves env (.enm i) v ∧ ∀ x ∈ variantItems (env.enm i) v, ItemTyped env x := by
  cases h with
  | unit hv hs =>
    simp only [variantItems, hv, hs]
    split <;> simp [itemLeaves, leaves, ItemTyped]
  | @payload _ j w s p hv hs card items =>
    have : w.skip = false := by
      cases hk : w.skip with
      | false => rfl
      | true => rw [hns _ (List.mem_of_getElem? hv) hk] at hs; cases hs
    simp only [variantItems, hv, hs, this, leaves]
    refine ⟨fieldItems_leaves env s _ p card, fun x hx => ?_⟩
    obtain ⟨y, hy, rfl⟩ := List.mem_map.mp (show x ∈ (valuesOf s.card p).map _ from hx)
    rintro ty v h
    simp only [Option.some.injEq, Prod.mk.injEq] at h
    obtain ⟨rfl, rfl⟩ := h
    exact items y hy

/-- What is needed of a field and its value. -/
structure FieldTyped (env : Env) (f : Field) (v : Val) : Prop where
  shape : Shape f.kind v
  elems : ∀ s w, f.kind = .element s → w ∈ valuesOf s.card v → HasTy env s.ty w
  flats : ∀ e, f.kind = .flatten e → HasTy env (.enm e) v
  noText : ∀ t, f.kind ≠ .text t

def elemItems (zs : List (Field × Val)) : List Item := zs.flatMap fun x =>
    match x.1.kind with
    | .element s => fieldItems s x.1.name.expanded x.2
    | _ => []

def flatItems (env : Env) (zs : List (Field × Val)) : List Item := zs.flatMap fun x =>
    match x.1.kind with
    | .flatten e => variantItems (env.enm e) x.2
    | _ => []

def attrsOf (zs : List (Field × Val)) : List (EName × String) := zs.filterMap fun x =>
    match x.1.kind with
    | .attribute o t => (attrText o t x.2).map fun s => (x.1.name.expanded, s)
    | _ => none

theorem fields_leaves {env : Env} (hns : ∀ i, ∀ w ∈ (env.enm i).variants, w.skip = true → w.slot = none) (zs : List (Field × Val)) (h : ∀ x ∈ zs, FieldTyped env x.1 x.2) :
    (∃ ua, Told ua ((attrsOf zs).map Prod.snd) ∧ (ua ++ ((elemItems zs).flatMap (itemLeaves env) ++ (flatItems env zs).flatMap (itemLeaves env))).Perm (zs.flatMap fun x => leaves env (kindTy x.1.kind) x.2)) ∧
    (∀ x ∈ elemItems zs, ItemTyped env x) ∧ ∀ x ∈ flatItems env zs, ItemTyped env x := by
  induction zs with
  | nil => exact ⟨⟨[], .nil, .refl _⟩, by simp [elemItems], by simp [flatItems]⟩
  | cons z zs ih =>
    obtain ⟨f, v⟩ := z
    obtain ⟨⟨ua, h1, h2⟩, h3, h4⟩ := ih fun x hx => h x (List.mem_cons_of_mem _ hx)
    have hz := h (f, v) (List.mem_cons_self ..)
    simp only at hz
    cases hk : f.kind with
    | element s =>
      have e1 : attrsOf ((f, v) :: zs) = attrsOf zs := by simp [attrsOf, hk]
      have e2 : elemItems ((f, v) :: zs) = fieldItems s f.name.expanded v ++ elemItems zs := by simp [elemItems, hk]
      have e3 : flatItems env ((f, v) :: zs) = flatItems env zs := by simp [flatItems, hk]
      have hs := hz.shape
      rw [hk] at hs
      rw [e1, e2, e3]
      refine ⟨⟨ua, h1, ?_⟩, fun x hx => ?_, h4⟩
      · rw [List.flatMap_append, fieldItems_leaves env s _ v hs, List.flatMap_cons, List.append_assoc, show kindTy f.kind = s.ty by rw [hk]; rfl]
        exact (List.perm_append_comm_assoc _ _ _).trans (h2.append_left _)
      · rcases List.mem_append.mp hx with hx | hx
        · obtain ⟨y, hy, rfl⟩ := List.mem_map.mp (show x ∈ (valuesOf s.card v).map _ from hx)
          rintro ty w h
          simp only [Option.some.injEq, Prod.mk.injEq] at h
          obtain ⟨rfl, rfl⟩ := h
          exact hz.elems s y hk hy
        · exact h3 x hx
    | flatten e =>
      have e1 : attrsOf ((f, v) :: zs) = attrsOf zs := by simp [attrsOf, hk]
      have e2 : elemItems ((f, v) :: zs) = elemItems zs := by simp [elemItems, hk]
      have e3 : flatItems env ((f, v) :: zs) = variantItems (env.enm e) v ++ flatItems env zs := by simp [flatItems, hk]
      obtain ⟨g1, g2⟩ := variantItems_leaves (hns e) (hz.flats e hk)
      rw [e1, e2, e3]
      refine ⟨⟨ua, h1, ?_⟩, h3, fun x hx => ?_⟩
      · rw [List.flatMap_append, g1, List.flatMap_cons, show kindTy f.kind = .enm e by rw [hk]; rfl]
        refine List.Perm.trans ?_ (h2.append_left _)
        refine ((List.perm_append_comm_assoc _ _ _).append_left _).trans ?_
        exact List.perm_append_comm_assoc _ _ _
      · rcases List.mem_append.mp hx with hx | hx
        · exact g2 x hx
        · exact h4 x hx
    | «attribute» o t =>
      have e2 : elemItems ((f, v) :: zs) = elemItems zs := by simp [elemItems, hk]
      have e3 : flatItems env ((f, v) :: zs) = flatItems env zs := by simp [flatItems, hk]
      have hs := hz.shape
      rw [hk] at hs
      have key : ∃ a, Told a ((attrText o t v).toList) ∧ a = leaves env (.text t) v := by
        cases o with
        | false =>
          obtain ⟨tv, rfl, hh⟩ := hs
          obtain ⟨s, hh⟩ := Option.isSome_iff_exists.mp hh
          exact ⟨[(t, tv)], by simpa [attrText, hh] using Told.cons t hh .nil, by simp [leaves]⟩
        | true =>
          rcases hs with rfl | ⟨_, rfl, tv, rfl, hh⟩
          · exact ⟨[], by simpa [attrText] using Told.nil, by simp [leaves]⟩
          · obtain ⟨s, hh⟩ := Option.isSome_iff_exists.mp hh
            exact ⟨[(t, tv)], by simpa [attrText, hh] using Told.cons t hh .nil, by simp [leaves]⟩
      obtain ⟨a, k1, rfl⟩ := key
      have e1 : (attrsOf ((f, v) :: zs)).map Prod.snd = (attrText o t v).toList ++ (attrsOf zs).map Prod.snd := by
        simp only [attrsOf, List.filterMap_cons, hk]
        cases attrText o t v <;> simp
      rw [e1, e2, e3]
      refine ⟨⟨leaves env (.text t) v ++ ua, told_append k1 h1, ?_⟩, h3, h4⟩
      rw [List.append_assoc, List.flatMap_cons, show kindTy f.kind = .text t by rw [hk]; rfl]
      exact h2.append_left _
    | text t => exact absurd hk (hz.noText t)

theorem strct_leaves {env : Env} (hnt : ∀ i, ∀ f ∈ (env.strct i).fields, ∀ t, f.kind ≠ .text t) (hns : ∀ i, ∀ w ∈ (env.enm i).variants, w.skip = true → w.slot = none) {i : Nat} {vs : List Val}
    (h : HasTy env (.strct i) (.strct vs)) :
    (∃ ua, Told ua ((structAttrs (env.strct i).fields vs).map Prod.snd) ∧ (ua ++ (structItems env (env.strct i).fields vs).flatMap (itemLeaves env)).Perm (leaves env (.strct i) (.strct vs))) ∧
    ∀ x ∈ structItems env (env.strct i).fields vs, ItemTyped env x := by
  cases h with
  | strct len shape elems flats =>
    have hz : ∀ x ∈ (env.strct i).fields.zip vs, FieldTyped env x.1 x.2 := by
      intro x hx
      obtain ⟨p, hp, rfl⟩ := List.mem_iff_getElem.mp hx
      have hp' : p < (env.strct i).fields.length ∧ p < vs.length := by rw [List.length_zip] at hp; omega
      have h1 : (env.strct i).fields[p]? = some (((env.strct i).fields.zip vs)[p]).1 := by simp [hp'.1]
      have h2 : vs[p]? = some (((env.strct i).fields.zip vs)[p]).2 := by simp [hp'.2]
      exact ⟨shape p _ _ h1 h2, fun s w hk hw => elems p _ s _ w h1 h2 hk hw, fun e hk => flats p _ e _ h1 h2 hk, hnt i _ (List.mem_of_getElem? h1)⟩
    obtain ⟨⟨ua, h1, h2⟩, h3, h4⟩ := fields_leaves hns _ hz
    have hl : (((env.strct i).fields.zip vs).flatMap fun x => leaves env (kindTy x.1.kind) x.2) = leaves env (.strct i) (.strct vs) := by
      simp only [leaves, leavesFields_zip]
    refine ⟨⟨ua, h1, ?_⟩, fun x hx => ?_⟩
    · rw [show structItems env (env.strct i).fields vs = elemItems ((env.strct i).fields.zip vs) ++ flatItems env ((env.strct i).fields.zip vs) from rfl, List.flatMap_append, ← hl]
      exact h2
    · rcases List.mem_append.mp (show x ∈ elemItems ((env.strct i).fields.zip vs) ++ flatItems env ((env.strct i).fields.zip vs) from hx) with hx | hx
      · exact h3 x hx
      · exact h4 x hx

/-- The texts written out are those of the values. -/
theorem shows_texts {env : Env} (hnt : ∀ i, ∀ f ∈ (env.strct i).fields, ∀ t, f.kind ≠ .text t) (hns : ∀ i, ∀ w ∈ (env.enm i).variants, w.skip = true → w.slot = none) {l : List Item} {g : EForest}
    (h : Shows env l g) (ht : ∀ x ∈ l, ItemTyped env x) : ∃ us, us.Perm (l.flatMap (itemLeaves env)) ∧ Told us (inside g) := by
  induction h with
  | nil => exact ⟨[], .refl _, .nil⟩
  | unit _ ih =>
    obtain ⟨us, h1, h2⟩ := ih fun x hx => ht x (List.mem_cons_of_mem _ hx)
    exact ⟨us, by simpa [itemLeaves] using h1, by simpa [inside] using h2⟩
  | @text n t tv s l f h _ ih =>
    obtain ⟨us, h1, h2⟩ := ih fun x hx => ht x (List.mem_cons_of_mem _ hx)
    exact ⟨(t, tv) :: us, by simpa [itemLeaves, leaves] using h1, by simpa [inside] using Told.cons t h h2⟩
  | @strct n i vs g l f _ _ ih1 ih2 =>
    obtain ⟨⟨ua, a1, a2⟩, a3⟩ := strct_leaves hnt hns (ht _ (List.mem_cons_self ..) _ _ rfl)
    obtain ⟨us1, b1, b2⟩ := ih1 a3
    obtain ⟨us2, c1, c2⟩ := ih2 fun x hx => ht x (List.mem_cons_of_mem _ hx)
    refine ⟨ua ++ us1 ++ us2, ?_, told_append (told_append a1 b2) c2⟩
    rw [List.flatMap_cons]
    refine List.Perm.append ?_ c1
    simp only [itemLeaves]
    exact (b1.append_left ua).trans a2
  | @enm n i j p g l f _ _ ih1 ih2 =>
    obtain ⟨a2, a3⟩ := variantItems_leaves (hns i) (ht _ (List.mem_cons_self ..) _ _ rfl)
    obtain ⟨us1, b1, b2⟩ := ih1 a3
    obtain ⟨us2, c1, c2⟩ := ih2 fun x hx => ht x (List.mem_cons_of_mem _ hx)
    refine ⟨us1 ++ us2, ?_, by simpa [inside] using told_append b2 c2⟩
    rw [List.flatMap_cons]
    refine List.Perm.append ?_ c1
    simp only [itemLeaves]
    rw [a2] at b1
    exact b1

/-- The values of attributes are written as asked for. -/
def StepTexts : Step → Prop
  | .wrote (.start _ as _) (some (_, l)) => as.map Prod.snd = l.map Prod.snd
  | _ => True

theorem resolveAttrs_texts {n : Namespaces} {l : List (EName × String)} {as : List (WName × String)} (h : resolveAttrs n l = .ok as) : as.map Prod.snd = l.map Prod.snd := by
  induction l generalizing as with
  | nil => simp only [resolveAttrs, Except.ok.injEq] at h; subst h; rfl
  | cons x l ih =>
    unfold resolveAttrs at h
    split at h
    · simp at h
    · split at h
      · simp at h
      · rename_i h2
        simp only [Except.ok.injEq] at h
        subst h
        simp [ih h2]

theorem textsInv (dbg : Bool) : StepInv dbg (fun _ _ => True) (fun _ => True) (fun _ => True) StepTexts where
  root _ := trivial
  child _ _ _ := trivial
  ns _ _ _ _ _ _ _ := trivial
  attr _ _ _ _ _ _ _ := trivial
  start _ _ _ _ _ _ _ h := ⟨trivial, resolveAttrs_texts h⟩
  chars _ := trivial
  stop := trivial
  failed _ _ := trivial
  abandoned _ := trivial

/-- The texts in events with expanded names. -/
def textsE : List EEvent → List String
  | [] => []
  | .start _ as :: l => as.map Prod.snd ++ textsE l
  | .chars s :: l => s :: textsE l
  | .stop :: l => textsE l

theorem textsE_forest (g : EForest) (l : List EEvent) : textsE (g.events ++ l) = inside g ++ textsE l := by
  induction g generalizing l with
  | nil => rfl
  | elem n as c rest ih1 ih2 => simp [EForest.events, textsE, inside, ih1, ih2]
  | chars s rest ih => simp [EForest.events, textsE, inside, ih]

theorem texts_steps (steps : List Step) (es : List EEvent) (h : steps.map stepAsked = es.map some) (hs : ∀ x ∈ steps, StepTexts x) :
    textsOf (steps.filterMap stepEvent) = textsE es := by
  induction steps generalizing es with
  | nil => cases es with
    | nil => rfl
    | cons e es => simp at h
  | cons x steps ih =>
    cases es with
    | nil => simp at h
    | cons e es =>
      simp only [List.map_cons, List.cons.injEq] at h
      obtain ⟨h1, h2⟩ := h
      have hx := hs x (List.mem_cons_self ..)
      have hr := ih es h2 (fun y hy => hs y (List.mem_cons_of_mem _ hy))
      unfold stepAsked at h1
      split at h1 <;> cases h1 <;> simp only [List.filterMap_cons, stepEvent, textsOf, textsE, hr]
      simp only [StepTexts] at hx
      rw [hx]

theorem received_texts (sink : Sink) (b es : List WEvent) : ∃ rest, textsOf es = textsOf (received sink b es).1 ++ rest := by
  induction es generalizing b with
  | nil => exact ⟨[], rfl⟩
  | cons e es ih =>
    unfold received
    split
    · exact ⟨_, rfl⟩
    · obtain ⟨rest, h⟩ := ih (b ++ [e])
      refine ⟨rest, ?_⟩
      cases e <;> simp [textsOf, h]

end SX.Conserve
