import Verif.Spec.Reorder
import Verif.Spec.Macro
import Verif.Proof.DerivePrune

/-
Elements with the same content (`Spec.SameContent`) have the same value.
-/
namespace SX
open Spec

theorem allAs_as {ty : Ty} {ks ks' : List Kid} (h : ks.map (fun k => k.as ty) = ks'.map (fun k => k.as ty)) : allAs ty ks = allAs ty ks' := by
  induction ks generalizing ks' with
  | nil =>
    cases ks' with
    | nil => rfl
    | cons k' ks' => simp at h
  | cons k ks ih =>
    cases ks' with
    | nil => simp at h
    | cons k' ks' =>
      simp only [List.map_cons, List.cons.injEq] at h
      simp only [allAs, h.1, ih h.2]

theorem slotValue_as {s : Slot} {a : Option Val} {ks ks' : List Kid}
    (h : ks.map (fun k => k.as s.ty) = ks'.map (fun k => k.as s.ty)) : slotValue s a ks = slotValue s a ks' := by
  cases ks with
  | nil =>
    cases ks' with
    | nil => rfl
    | cons k' ks' => simp at h
  | cons k ks =>
    cases ks' with
    | nil => simp at h
    | cons k' ks' =>
      have h1 := allAs_as h
      simp only [List.map_cons, List.cons.injEq] at h
      have h2 : ks.isEmpty = ks'.isEmpty := by
        have := congrArg List.length h.2
        simp only [List.length_map] at this
        cases ks <;> cases ks' <;> simp at this ⊢
      simp only [slotValue, h.1, h1, h2]

theorem attrValue_value {o : Bool} {t : TextTy} {a : Option Val} {l l' : List XAttr} (h : l.map XAttr.value = l'.map XAttr.value) :
    attrValue o t a l = attrValue o t a l' := by
  rcases l with _ | ⟨x, _ | ⟨x2, l⟩⟩ <;> rcases l' with _ | ⟨y, _ | ⟨y2, l'⟩⟩ <;> simp only [List.map_cons, List.map_nil, List.cons.injEq, reduceCtorEq, and_true, and_false] at h
  · rfl
  · simp only [attrValue, h]
  · rfl

theorem map_eq_of_pointwise {α β : Type} {f : α → β} {l l' : List α} (hl : l.length = l'.length)
    (h : ∀ (p : Nat) u v, l[p]? = some u → l'[p]? = some v → f u = f v) : l.map f = l'.map f := by
  apply List.ext_getElem?
  intro p
  simp only [List.getElem?_map]
  cases hu : l[p]? with
  | none =>
    have : l'[p]? = none := by rw [List.getElem?_eq_none_iff] at hu ⊢; omega
    rw [this]
  | some u =>
    cases hv : l'[p]? with
    | none =>
      rw [List.getElem?_eq_none_iff] at hv
      have := (List.getElem?_eq_some_iff.mp hu).1
      omega
    | some v => simp only [Option.map_some, h p u v hu hv]

/-- The value of an enum depends on the children for each variant only. -/
theorem enumValue_as (env : Env) (hok : EnvOk env) (e : Nat) {ks ks' : List Kid}
    (h1 : ∀ w ∈ (env.enm e).variants, named w.name.expanded ks = [] ↔ named w.name.expanded ks' = [])
    (h2 : ∀ w s, w ∈ (env.enm e).variants → w.slot = some s →
      (named w.name.expanded ks).map (fun k => k.as s.ty) = (named w.name.expanded ks').map (fun k => k.as s.ty)) :
    enumValue (env.enm e) ks = enumValue (env.enm e) ks' := by
  apply Option.ext
  intro v
  simp only [enumValue_iff env hok]
  refine exists_congr fun j => exists_congr fun var => and_congr_right fun hv => ?_
  have hm := List.mem_of_getElem? hv
  refine and_congr (not_congr (h1 var hm)) (and_congr ?_ ?_)
  · exact forall_congr' fun w => forall_congr' fun hw => imp_congr_left (not_congr (h1 w hw))
  · split
    · rfl
    · rename_i s hs
      rw [slotValue_as (h2 var s hm hs)]

theorem named_filter (n : EName) (p : Kid → Bool) (ks : List Kid) (h : ∀ k ∈ ks, k.name = n → p k = true) :
    named n (ks.filter p) = named n ks := by
  simp only [named, List.filter_filter]
  apply List.filter_congr
  intro k hk
  cases hn : k.name == n with
  | false => rfl
  | true => simp [h k hk (eq_of_beq hn)]

theorem takeWhile_filter {α : Type} (p q : α → Bool) (l : List α) (h : ∀ a, q a = false → p a = true) :
    (l.filter p).takeWhile q = (l.takeWhile q).filter p := by
  induction l with
  | nil => rfl
  | cons a l ih =>
    cases hq : q a with
    | false => simp [h a hq, hq]
    | true =>
      cases hp : p a with
      | false => simp [hp, hq, ih]
      | true => simp [hp, hq, ih]

theorem past_filter (env : Env) (p : Kid → Bool) (es : List Nat) (ks : List Kid)
    (h : ∀ e ∈ es, ∀ k : Kid, variantOf (env.enm e) k.name ≠ none → p k = true) :
    past env es (ks.filter p) = (past env es ks).filter p := by
  induction es generalizing ks with
  | nil => rfl
  | cons e es ih =>
    simp only [past]
    rw [takeWhile_filter, ih _ fun e' he' => h e' (by simp [he'])]
    intro k hk
    refine h e (by simp) k ?_
    intro hn
    simp [hn] at hk

/-- Lists that correspond, with the same names. -/
theorem rowwise_of_pointwise {α : Type} {R : α → α → Prop} {l l' : List α} (hl : l.length = l'.length)
    (h : ∀ (p : Nat) u v, l[p]? = some u → l'[p]? = some v → R u v) : Rowwise R l l' := by
  induction l generalizing l' with
  | nil =>
    cases l' with
    | nil => exact .nil
    | cons _ _ => simp at hl
  | cons a l ih =>
    cases l' with
    | nil => simp at hl
    | cons b l' =>
      exact .cons (h 0 a b rfl rfl) (ih (by simpa using hl) fun p u v hu hv => h (p + 1) u v (by simpa using hu) (by simpa using hv))

theorem rowwise_filter {α : Type} {R : α → α → Prop} {q : α → Bool} (hq : ∀ a b, R a b → q a = q b) {l l' : List α} (h : Rowwise R l l') :
    Rowwise R (l.filter q) (l'.filter q) := by
  induction h with
  | nil => exact .nil
  | @cons a b l m h t ih =>
    simp only [List.filter_cons, hq a b h]
    split
    · exact .cons h ih
    · exact ih

theorem rowwise_takeWhile {α : Type} {R : α → α → Prop} {q : α → Bool} (hq : ∀ a b, R a b → q a = q b) {l l' : List α} (h : Rowwise R l l') :
    Rowwise R (l.takeWhile q) (l'.takeWhile q) := by
  induction h with
  | nil => exact .nil
  | @cons a b l m h t ih =>
    simp only [List.takeWhile_cons, hq a b h]
    split
    · exact .cons h ih
    · exact .nil

theorem rowwise_past (env : Env) {R : Kid → Kid → Prop} (hR : ∀ a b, R a b → a.name = b.name) (es : List Nat) {l l' : List Kid}
    (h : Rowwise R l l') : Rowwise R (past env es l) (past env es l') := by
  induction es generalizing l l' with
  | nil => exact h
  | cons e es ih =>
    simp only [past]
    exact ih (rowwise_takeWhile (fun a b hab => by rw [hR a b hab]) h)

theorem rowwise_nil_iff {α : Type} {R : α → α → Prop} {l l' : List α} (h : Rowwise R l l') : l = [] ↔ l' = [] := by
  cases h <;> simp

theorem rowwise_map {α β : Type} {R : α → α → Prop} {f : α → β} {l l' : List α} (h : Rowwise R l l') (P : α → Prop) (hP : ∀ a ∈ l, P a)
    (hf : ∀ a b, R a b → P a → f a = f b) : l.map f = l'.map f := by
  induction h with
  | nil => rfl
  | @cons a b l m h t ih =>
    simp only [List.map_cons, hf a b h (hP a (by simp)), ih fun c hc => hP c (by simp [hc])]

/-- Fields whose children correspond, with the same names, have the same value. -/
theorem enumValue_rowwise (env : Env) (hok : EnvOk env) (e : Nat) {R : Kid → Kid → Prop} (hR : ∀ a b, R a b → a.name = b.name)
    (hv : ∀ a b, R a b → ∀ w s, w ∈ (env.enm e).variants → w.slot = some s → a.name = w.name.expanded → a.as s.ty = b.as s.ty)
    {l l' : List Kid} (h : Rowwise R l l') : enumValue (env.enm e) l = enumValue (env.enm e) l' := by
  have hn : ∀ n, Rowwise R (named n l) (named n l') := fun n => rowwise_filter (fun a b hab => by rw [hR a b hab]) h
  refine enumValue_as env hok e (fun w _ => rowwise_nil_iff (hn _)) fun w s hw hs => ?_
  refine rowwise_map (hn _) (fun k => k.name = w.name.expanded) ?_ fun a b hab ha => hv a b hab w s hw hs ha
  intro a ha
  exact eq_of_beq (List.mem_filter.mp ha).2

theorem flatKids_kids (env : Env) (hok : EnvOk env) (fields : List Field) (x : Elem) :
    ((strangers fields (kids env x.children)).filter fun k => (flatTypes fields).any fun e => (variantOf (env.enm e) k.name).isSome) =
      (flatKids env fields x).map (Elem.kid env) := by
  have hp : ∀ e n, (variantOf (env.enm e) n).isSome = (env.enm e).variants.any fun w => w.name.expanded == n := by
    intro e n
    rw [Bool.eq_iff_iff, Option.isSome_iff_exists, List.any_eq_true]
    constructor
    · rintro ⟨j, hj⟩
      obtain ⟨w, h1, -, h2⟩ := variantOf_some hj
      exact ⟨w, List.mem_of_getElem? h1, by simp [h2]⟩
    · rintro ⟨w, h1, h2⟩
      obtain ⟨j, hj⟩ := List.getElem?_of_mem h1
      exact ⟨j, (variantOf_iff env hok e n j).mpr ⟨w, hj, eq_of_beq h2⟩⟩
  rw [kids_children, strangers, List.filter_map, List.filter_map]
  simp only [flatKids, List.filter_filter]
  congr 1
  apply List.filter_congr
  intro c _
  simp only [Function.comp_apply, hp]
  rw [Bool.and_comm]
  rfl

theorem named_map_as (env : Env) {ty : Ty} {n : EName} {f g : Forest} (hl : (f.childrenNamed n).length = (g.childrenNamed n).length)
    (h : ∀ (p : Nat) u v, (f.childrenNamed n)[p]? = some u → (g.childrenNamed n)[p]? = some v →
      bodyValue env (u.body env) ty = bodyValue env (v.body env) ty) :
    (named n (kids env f)).map (fun k => k.as ty) = (named n (kids env g)).map (fun k => k.as ty) := by
  rw [named_children, named_children, List.map_map, List.map_map]
  exact map_eq_of_pointwise hl h

theorem sameCount_nil {s : Option Slot} {l l' : List Elem} (h : SameCount s l l') : l = [] ↔ l' = [] := by
  cases s with
  | none => exact h
  | some s =>
    simp only [SameCount] at h
    rw [← List.length_eq_zero_iff, ← List.length_eq_zero_iff, h]

theorem flatTypes_mem {fields pre post : List Field} {f : Field} {e : Nat} (hf : fields = pre ++ f :: post) (hk : f.kind = .flatten e) :
    e ∈ flatTypes fields ∧ (∀ e' ∈ flatTypes pre, e' ∈ flatTypes fields) ∧ ((flatTypes fields).length ≤ 1 → flatTypes pre = []) := by
  have h1 : flatTypes (f :: post) = e :: flatTypes post := by simp [flatTypes, hk]
  rw [hf, flatTypes_append, h1]
  refine ⟨by simp, fun e' he' => by simp [he'], fun h => ?_⟩
  simp only [List.length_append, List.length_cons] at h
  exact List.length_eq_zero_iff.mp (by omega)

theorem sameContent_value (env : Env) (hok : EnvOk env) {ty : Ty} {x y : Elem} (h : SameContent env ty x y) :
    bodyValue env (x.body env) ty = bodyValue env (y.body env) ty := by
  induction h with
  | text hx hy ht =>
    simp only [bodyValue, Elem.body, kids_children, hx, hy, List.map_nil, ht]
  | @notText t x y hx hy =>
    simp only [bodyValue, Elem.body, kids_children]
    cases h1 : x.children.children with
    | nil => exact absurd h1 hx
    | cons a l =>
      cases h2 : y.children.children with
      | nil => exact absurd h2 hy
      | cons b m => rfl
  | @enm i x y counts items ih =>
    refine enumValue_as env hok i ?_ ?_
    · intro w hw
      simp only [Elem.body, named_children, List.map_eq_nil_iff]
      exact sameCount_nil (counts w hw)
    · intro w s hw hs
      refine named_map_as env ?_ fun p u v => ih w s p u v hw hs
      have := counts w hw
      rw [hs] at this
      exact this
  | @single i x y one attrs counts items flatCounts flatItems ih ihf =>
    simp only [bodyValue, structValue]
    rw [fieldsValue_congr env _ (x.body env) (y.body env) []]
    intro pre f post hf
    have hm : f ∈ (env.strct i).fields := by rw [hf]; simp
    simp only [List.nil_append, fieldValue]
    split
    · rename_i s hk
      exact slotValue_as (named_map_as env (counts f s hm hk) fun p u v => ih f s p u v hm hk)
    · rename_i o t hk
      exact attrValue_value (attrs f o t hm hk)
    · rename_i e hk
      obtain ⟨he, -, hpre⟩ := flatTypes_mem hf hk
      rw [hpre one]
      simp only [past]
      refine enumValue_as env hok e ?_ ?_
      · intro w hw
        rw [named_strangers, named_strangers]
        split
        · simp
        · rename_i hd
          simp only [Elem.body, named_children, List.map_eq_nil_iff]
          exact sameCount_nil (flatCounts e w he hw (by simpa using hd))
      · intro w s hw hs
        rw [named_strangers, named_strangers]
        split
        · rfl
        · rename_i hd
          refine named_map_as env ?_ fun p u v => ihf e w s p u v he hw (by simpa using hd) hs
          have := flatCounts e w he hw (by simpa using hd)
          rw [hs] at this
          exact this
    · rfl
  | @several i x y attrs counts items names flatItems ih ihf =>
    simp only [bodyValue, structValue]
    rw [fieldsValue_congr env _ (x.body env) (y.body env) []]
    intro pre f post hf
    have hm : f ∈ (env.strct i).fields := by rw [hf]; simp
    simp only [List.nil_append, fieldValue]
    split
    · rename_i s hk
      exact slotValue_as (named_map_as env (counts f s hm hk) fun p u v => ih f s p u v hm hk)
    · rename_i o t hk
      exact attrValue_value (attrs f o t hm hk)
    · rename_i e hk
      obtain ⟨he, hpre, -⟩ := flatTypes_mem hf hk
      let q : Kid → Bool := fun k => (flatTypes (env.strct i).fields).any fun e => (variantOf (env.enm e) k.name).isSome
      have hq : ∀ e ∈ flatTypes (env.strct i).fields, ∀ k : Kid, variantOf (env.enm e) k.name ≠ none → q k = true := by
        intro e' he' k hk
        simp only [q, List.any_eq_true]
        exact ⟨e', he', by simpa [Option.isSome_iff_ne_none] using hk⟩
      have hfil : ∀ z : Elem, enumValue (env.enm e) (past env (flatTypes pre) (strangers (env.strct i).fields (z.body env).kids)) =
          enumValue (env.enm e) (past env (flatTypes pre) ((flatKids env (env.strct i).fields z).map (Elem.kid env))) := by
        intro z
        rw [← flatKids_kids env hok, past_filter env _ _ _ fun e' he' => hq e' (hpre e' he')]
        have hnm : ∀ w ∈ (env.enm e).variants, ∀ ks : List Kid, named w.name.expanded (ks.filter q) = named w.name.expanded ks := by
          intro w hw ks
          apply named_filter
          intro k _ hkn
          refine hq e he k ?_
          obtain ⟨j, hj⟩ := List.getElem?_of_mem hw
          rw [(variantOf_iff env hok e k.name j).mpr ⟨w, hj, hkn.symm⟩]
          simp
        refine enumValue_as env hok e (fun w hw => ?_) fun w s hw hs => ?_
        · exact (hnm w hw _).symm ▸ Iff.rfl
        · exact congrArg _ (hnm w hw _).symm
      rw [hfil x, hfil y]
      let R : Kid → Kid → Prop := fun a b => a.name = b.name ∧ ∀ w s, w ∈ (env.enm e).variants → w.slot = some s → a.name = w.name.expanded →
        a.as s.ty = b.as s.ty
      refine enumValue_rowwise env hok e (R := R) (fun a b h => h.1) (fun a b h => h.2) (rowwise_past env (fun a b h => h.1) _ ?_)
      refine rowwise_of_pointwise ?_ ?_
      · have := congrArg List.length names
        simpa using this
      · intro p a b ha hb
        simp only [List.getElem?_map, Option.map_eq_some_iff] at ha hb
        obtain ⟨u, hu, rfl⟩ := ha
        obtain ⟨v, hv, rfl⟩ := hb
        have hn : u.name.expanded = v.name.expanded := by
          have := congrArg (fun l => l[p]?) names
          simpa [List.getElem?_map, hu, hv] using this
        refine ⟨hn, fun w s hw hs hnw => ihf e w s p u v he hw hs hu hv hnw⟩
    · rfl

theorem childrenNamed_none {f g : Forest} (h : ∀ n, (f.childrenNamed n).length = (g.childrenNamed n).length) (hf : f.children = []) :
    g.children = [] := by
  cases hg : g.children with
  | nil => rfl
  | cons a l =>
    have := h a.name.expanded
    simp [Forest.childrenNamed, hf, hg] at this

theorem sameCount_length {s : Option Slot} {l l' : List Elem} (h : l.length = l'.length) : SameCount s l l' := by
  cases s with
  | none => exact ⟨fun hl => List.length_eq_zero_iff.mp (by simpa [hl] using h.symm), fun hl => List.length_eq_zero_iff.mp (by simpa [hl] using h)⟩
  | some s => exact h

theorem shuffled_same (env : Env) (hone : ∀ i, (flatTypes (env.strct i).fields).length ≤ 1) {x y : Elem} (h : Shuffled x y) (ty : Ty) :
    SameContent env ty x y := by
  induction h generalizing ty with
  | @mk x y attrs text counts items ih =>
    cases ty with
    | text t =>
      by_cases hx : x.children.children = []
      · exact .text hx (childrenNamed_none counts hx) (text hx)
      · exact .notText hx fun hy => hx (childrenNamed_none (fun n => (counts n).symm) hy)
    | enm i => exact .enm (fun w _ => sameCount_length (counts _)) fun w s p u v _ _ hu hv => ih _ p u v hu hv s.ty
    | strct i =>
      exact .single (hone i) (fun f _ _ _ _ => attrs _) (fun f _ _ _ => counts _) (fun f s p u v _ _ hu hv => ih _ p u v hu hv s.ty)
        (fun e w _ _ _ => sameCount_length (counts _)) fun e w s p u v _ _ _ _ hu hv => ih _ p u v hu hv s.ty

end SX
