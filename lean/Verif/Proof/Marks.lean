import Verif.Spec.Marks
import Verif.Spec.Cut
import Verif.Proof.Conserve

namespace SX.Marks
open SX.Spec Conserve

theorem marksAll_flatMap (env : Env) (h : Holder) (ty : Ty) (l : List Val) : marksAll env h ty l = l.flatMap (marks env h ty) := by
  induction l with
  | nil => simp [marksAll]
  | cons v l ih => simp [marksAll, ih]

theorem marksFields_zip (env : Env) (fs : List Field) (l : List Val) :
    marksFields env fs l = (fs.zip l).flatMap fun x => marks env (fieldHolder x.1).1 (fieldHolder x.1).2 x.2 := by
  induction fs generalizing l with
  | nil => simp [marksFields]
  | cons f fs ih => cases l with
    | nil => simp [marksFields]
    | cons v l => simp [marksFields, ih]

/-- The pieces of a child element to be. -/
def itemMarks (env : Env) (x : Item) : List Mark :=
  match x.value with
  | none => [.element x.name.loc]
  | some (ty, v) => marks env (.element x.name.loc) ty v

/-- The pieces of an element to be written. -/
def pieces : EForest → List Mark
  | .nil => []
  | .elem n as ch rest => .element n.loc :: (as.map (fun a => .attribute a.1.loc (some a.2)) ++ pieces ch ++ pieces rest)
  | .chars s rest => .text (some s) :: pieces rest

theorem fieldItems_marks (env : Env) (s : Slot) (n : EName) (v : Val) (h : CardOk s.card v) :
    (fieldItems s n v).flatMap (itemMarks env) = marks env (.element n.loc) s.ty v := by
  obtain ⟨card, ty⟩ := s
  cases card with
  | one => simp [fieldItems, valuesOf, itemMarks]
  | opt =>
    obtain ⟨o, rfl⟩ := h
    cases o <;> cases ty <;> simp [fieldItems, valuesOf, itemMarks, marks]
  | many =>
    obtain ⟨l, rfl⟩ := h
    cases ty <;> simp [fieldItems, valuesOf, itemMarks, marks, marksAll_flatMap, List.flatMap_map]

theorem variantItems_marks {env : Env} {i : Nat} {v : Val} (hns : ∀ w ∈ (env.enm i).variants, w.skip = true → w.slot = none) (hd : Holder) (h : HasTy env (.enm i) v) :
    hd.head ++ (variantItems (env.enm i) v).flatMap (itemMarks env) = marks env hd (.enm i) v := by
  cases h with
  | unit hv hs =>
    simp only [variantItems, hv, hs, marks]
    split <;> simp [itemMarks, DName.expanded]
  | @payload _ j w s p hv hs card items =>
    have : w.skip = false := by
      cases hk : w.skip with
      | false => rfl
      | true => rw [hns _ (List.mem_of_getElem? hv) hk] at hs; cases hs
    simp only [variantItems, hv, hs, this, marks]
    rw [show (if false = true then ([] : List Item) else fieldItems s w.name.expanded p) = fieldItems s w.name.expanded p from rfl, fieldItems_marks env s _ p card]
    rfl

theorem fields_marks {env : Env} (hns : ∀ i, ∀ w ∈ (env.enm i).variants, w.skip = true → w.slot = none) (zs : List (Field × Val)) (h : ∀ x ∈ zs, FieldTyped env x.1 x.2) :
    ((attrsOf zs).map (fun a => Mark.attribute a.1.loc (some a.2)) ++ ((elemItems zs).flatMap (itemMarks env) ++ (flatItems env zs).flatMap (itemMarks env))).Perm
      (zs.flatMap fun x => marks env (fieldHolder x.1).1 (fieldHolder x.1).2 x.2) := by
  induction zs with
  | nil => exact .refl _
  | cons z zs ih =>
    obtain ⟨f, v⟩ := z
    have h2 := ih fun x hx => h x (List.mem_cons_of_mem _ hx)
    have hz := h (f, v) (List.mem_cons_self ..)
    simp only at hz
    cases hk : f.kind with
    | element s =>
      have e1 : attrsOf ((f, v) :: zs) = attrsOf zs := by simp [attrsOf, hk]
      have e2 : elemItems ((f, v) :: zs) = fieldItems s f.name.expanded v ++ elemItems zs := by simp [elemItems, hk]
      have e3 : flatItems env ((f, v) :: zs) = flatItems env zs := by simp [flatItems, hk]
      have hs := hz.shape
      rw [hk] at hs
      rw [e1, e2, e3, List.flatMap_append, fieldItems_marks env s _ v hs, List.flatMap_cons, List.append_assoc, show fieldHolder f = (.element f.name.loc, s.ty) by simp [fieldHolder, hk]]
      exact (List.perm_append_comm_assoc _ _ _).trans (h2.append_left _)
    | flatten e =>
      have e1 : attrsOf ((f, v) :: zs) = attrsOf zs := by simp [attrsOf, hk]
      have e2 : elemItems ((f, v) :: zs) = elemItems zs := by simp [elemItems, hk]
      have e3 : flatItems env ((f, v) :: zs) = variantItems (env.enm e) v ++ flatItems env zs := by simp [flatItems, hk]
      have g1 := variantItems_marks (hns e) .flat (hz.flats e hk)
      rw [show Holder.flat.head = [] from rfl, List.nil_append] at g1
      rw [e1, e2, e3, List.flatMap_append, g1, List.flatMap_cons, show fieldHolder f = (.flat, .enm e) by simp [fieldHolder, hk]]
      refine List.Perm.trans ?_ (h2.append_left _)
      refine ((List.perm_append_comm_assoc _ _ _).append_left _).trans ?_
      exact List.perm_append_comm_assoc _ _ _
    | «attribute» o t =>
      have e2 : elemItems ((f, v) :: zs) = elemItems zs := by simp [elemItems, hk]
      have e3 : flatItems env ((f, v) :: zs) = flatItems env zs := by simp [flatItems, hk]
      have hs := hz.shape
      rw [hk] at hs
      have key : (attrText o t v).toList.map (fun s => Mark.attribute f.name.loc (some s)) = marks env (.attribute f.name.loc) (.text t) v := by
        cases o with
        | false =>
          obtain ⟨tv, rfl, hh⟩ := hs
          obtain ⟨s, hh⟩ := Option.isSome_iff_exists.mp hh
          simp [attrText, hh, marks, Holder.said]
        | true =>
          rcases hs with rfl | ⟨_, rfl, tv, rfl, hh⟩
          · simp [attrText, marks]
          · obtain ⟨s, hh⟩ := Option.isSome_iff_exists.mp hh
            simp [attrText, hh, marks, Holder.said]
      have e1 : (attrsOf ((f, v) :: zs)).map (fun a => Mark.attribute a.1.loc (some a.2)) =
          (attrText o t v).toList.map (fun s => Mark.attribute f.name.loc (some s)) ++ (attrsOf zs).map (fun a => Mark.attribute a.1.loc (some a.2)) := by
        simp only [attrsOf, List.filterMap_cons, hk]
        cases attrText o t v <;> simp [DName.expanded]
      rw [e1, e2, e3, key, List.append_assoc, List.flatMap_cons, show fieldHolder f = (.attribute f.name.loc, .text t) by simp [fieldHolder, hk]]
      exact h2.append_left _
    | text t => exact absurd hk (hz.noText t)

theorem strct_marks {env : Env} (hnt : ∀ i, ∀ f ∈ (env.strct i).fields, ∀ t, f.kind ≠ .text t) (hns : ∀ i, ∀ w ∈ (env.enm i).variants, w.skip = true → w.slot = none)
    {i : Nat} {vs : List Val} (h : HasTy env (.strct i) (.strct vs)) :
    ((structAttrs (env.strct i).fields vs).map (fun a => Mark.attribute a.1.loc (some a.2)) ++ (structItems env (env.strct i).fields vs).flatMap (itemMarks env)).Perm
      (marksFields env (env.strct i).fields vs) := by
  cases h with
  | strct len shape elems flats =>
    have hz : ∀ x ∈ (env.strct i).fields.zip vs, FieldTyped env x.1 x.2 := by
      intro x hx
      obtain ⟨p, hp, rfl⟩ := List.mem_iff_getElem.mp hx
      have hp' : p < (env.strct i).fields.length ∧ p < vs.length := by rw [List.length_zip] at hp; omega
      have h1 : (env.strct i).fields[p]? = some (((env.strct i).fields.zip vs)[p]).1 := by simp [hp'.1]
      have h2 : vs[p]? = some (((env.strct i).fields.zip vs)[p]).2 := by simp [hp'.2]
      exact ⟨shape p _ _ h1 h2, fun s w hk hw => elems p _ s _ w h1 h2 hk hw, fun e hk => flats p _ e _ h1 h2 hk, hnt i _ (List.mem_of_getElem? h1)⟩
    rw [show structItems env (env.strct i).fields vs = elemItems ((env.strct i).fields.zip vs) ++ flatItems env ((env.strct i).fields.zip vs) from rfl, List.flatMap_append, marksFields_zip]
    exact fields_marks hns _ hz

/-- What is to be written is what the values have to say. -/
theorem shows_marks {env : Env} (hnt : ∀ i, ∀ f ∈ (env.strct i).fields, ∀ t, f.kind ≠ .text t) (hns : ∀ i, ∀ w ∈ (env.enm i).variants, w.skip = true → w.slot = none) {l : List Item} {g : EForest}
    (h : Shows env l g) (ht : ∀ x ∈ l, ItemTyped env x) : (pieces g).Perm (l.flatMap (itemMarks env)) := by
  induction h with
  | nil => exact .refl _
  | unit _ ih =>
    have h1 := ih fun x hx => ht x (List.mem_cons_of_mem _ hx)
    simpa [itemMarks, pieces] using h1
  | @text n t tv s l f h _ ih =>
    have h1 := ih fun x hx => ht x (List.mem_cons_of_mem _ hx)
    simpa [itemMarks, pieces, marks, Holder.said, Holder.head, h] using h1
  | @strct n i vs g l f _ _ ih1 ih2 =>
    have a2 := strct_marks hnt hns (ht _ (List.mem_cons_self ..) _ _ rfl)
    have a3 := (strct_leaves hnt hns (ht _ (List.mem_cons_self ..) _ _ rfl)).2
    have b1 := ih1 a3
    have c1 := ih2 fun x hx => ht x (List.mem_cons_of_mem _ hx)
    rw [List.flatMap_cons]
    simp only [itemMarks, marks, pieces, Holder.head, List.singleton_append, List.cons_append]
    exact (List.Perm.append ((b1.append_left _).trans a2) c1).cons _
  | @enm n i j p g l f _ _ ih1 ih2 =>
    have hv := ht _ (List.mem_cons_self ..) _ _ rfl
    have b1 := ih1 (variantItems_leaves (hns i) hv).2
    have c1 := ih2 fun x hx => ht x (List.mem_cons_of_mem _ hx)
    rw [List.flatMap_cons]
    simp only [itemMarks, pieces]
    rw [← variantItems_marks (hns i) (.element n.loc) hv]
    simpa [Holder.head] using (b1.append c1).cons (Mark.element n.loc)

/-- Elements and attributes are written with the local names asked for, and attributes with the texts. -/
def StepMarks : Step → Prop
  | .wrote (.start q as _) (some (n, l)) => q.loc = n.loc ∧ as.map (fun a => (a.1.loc, a.2)) = l.map (fun a => (a.1.loc, a.2))
  | _ => True

theorem resolveElement_loc {n : Namespaces} {name : EName} {q : WName} (h : n.resolveElement name = .ok q) : q.loc = name.loc := by
  unfold Namespaces.resolveElement at h
  simp only at h
  (repeat' split at h) <;> first | (cases h; rfl) | cases h

theorem resolveAttribute_loc {n : Namespaces} {name : EName} {q : WName} (h : n.resolveAttribute name = .ok q) : q.loc = name.loc := by
  unfold Namespaces.resolveAttribute at h
  (repeat' split at h) <;> first | (cases h; rfl) | cases h

theorem resolveAttrs_marks {n : Namespaces} {l : List (EName × String)} {as : List (WName × String)} (h : resolveAttrs n l = .ok as) :
    as.map (fun a => (a.1.loc, a.2)) = l.map (fun a => (a.1.loc, a.2)) := by
  induction l generalizing as with
  | nil => simp only [resolveAttrs, Except.ok.injEq] at h; subst h; rfl
  | cons x l ih =>
    unfold resolveAttrs at h
    split at h
    · simp at h
    · rename_i h1
      split at h
      · simp at h
      · rename_i h2
        simp only [Except.ok.injEq] at h
        subst h
        simp [ih h2, resolveAttribute_loc h1]

theorem marksInv (dbg : Bool) : StepInv dbg (fun _ _ => True) (fun _ => True) (fun _ => True) StepMarks where
  root _ := trivial
  child _ _ _ := trivial
  ns _ _ _ _ _ _ _ := trivial
  attr _ _ _ _ _ _ _ := trivial
  start _ _ _ _ _ _ he h := ⟨trivial, resolveElement_loc he, resolveAttrs_marks h⟩
  chars _ := trivial
  stop := trivial
  failed _ _ := trivial
  abandoned _ := trivial

/-- The pieces of events with expanded names. -/
def marksE : List EEvent → List Mark
  | [] => []
  | .start n as :: l => .element n.loc :: (as.map (fun a => .attribute a.1.loc (some a.2)) ++ marksE l)
  | .chars s :: l => .text (some s) :: marksE l
  | .stop :: l => marksE l

theorem marksE_forest (g : EForest) (l : List EEvent) : marksE (g.events ++ l) = pieces g ++ marksE l := by
  induction g generalizing l with
  | nil => rfl
  | elem n as c rest ih1 ih2 => simp [EForest.events, marksE, pieces, ih1, ih2]
  | chars s rest ih => simp [EForest.events, marksE, pieces, ih]

theorem marks_steps (steps : List Step) (es : List EEvent) (h : steps.map stepAsked = es.map some) (hs : ∀ x ∈ steps, StepMarks x) :
    marksOf (steps.filterMap stepEvent) = marksE es := by
  induction steps generalizing es with
  | nil => cases es with
    | nil => rfl
    | cons e es => simp at h
  | cons x steps ih =>
    cases es with
    | nil => simp at h
    | cons e es =>
      simp only [List.map_cons, List.cons.injEq] at h
      obtain ⟨h1, h2⟩ := h
      have hx := hs x (List.mem_cons_self ..)
      have hr := ih es h2 (fun y hy => hs y (List.mem_cons_of_mem _ hy))
      unfold stepAsked at h1
      split at h1 <;> cases h1 <;> simp only [List.filterMap_cons, stepEvent, marksOf, marksE, hr]
      simp only [StepMarks] at hx
      have := congrArg (List.map fun p : String × String => Mark.attribute p.1 (some p.2)) hx.2
      simp only [List.map_map] at this
      rw [hx.1]
      exact congrArg (fun z => _ :: (z ++ _)) this

theorem received_marks (sink : Sink) (b es : List WEvent) : ∃ rest, marksOf es = marksOf (received sink b es).1 ++ rest := by
  induction es generalizing b with
  | nil => exact ⟨[], rfl⟩
  | cons e es ih =>
    unfold received
    split
    · exact ⟨_, rfl⟩
    · obtain ⟨rest, h⟩ := ih (b ++ [e])
      refine ⟨rest, ?_⟩
      cases e <;> simp [marksOf, h]

end SX.Marks
