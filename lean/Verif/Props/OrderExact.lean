import Verif.Props.Derive

/-
C21, exactly: for which structs the order of differently named children does not matter; and which order is enough for all of them.
-/
namespace SX
open Spec

namespace Order

/-- Elements one after the other. -/
def row : List Elem → Forest
  | [] => .nil
  | x :: l => Elem.over x (row l)

theorem children_row (l : List Elem) : (row l).children = l := by
  induction l with
  | nil => rfl
  | cons x l ih =>
    change x :: (row l).children = x :: l
    rw [ih]

theorem past_nil (env : Env) (es : List Nat) : past env es [] = [] := by
  induction es with
  | nil => rfl
  | cons e es ih => exact ih

theorem filter_both {α : Type} (p q : α → Bool) (l : List α) (h : ∀ x ∈ l, ∀ y ∈ l, q x = true → q y = true → p x = p y) :
    (l.filter p ++ l.filter fun x => !p x).filter q = l.filter q := by
  rw [List.filter_append, List.filter_filter, List.filter_filter]
  by_cases hx : ∃ x ∈ l, q x = true ∧ p x = true
  · obtain ⟨x, hxl, hq, hp⟩ := hx
    have h1 : (l.filter fun a => q a && p a) = l.filter q := by
      apply List.filter_congr
      intro y hy
      cases hqy : q y with
      | false => rfl
      | true => rw [← h x hxl y hy hq hqy, hp]; rfl
    have h2 : (l.filter fun a => q a && !p a) = [] := by
      rw [List.filter_eq_nil_iff]
      intro y hy hc
      simp only [Bool.and_eq_true, Bool.not_eq_true'] at hc
      rw [h y hy x hxl hc.1 hq, hp] at hc
      exact absurd hc.2 (by simp)
    rw [h1, h2, List.append_nil]
  · have h1 : (l.filter fun a => q a && p a) = [] := by
      rw [List.filter_eq_nil_iff]
      intro y hy hc
      simp only [Bool.and_eq_true] at hc
      exact hx ⟨y, hy, hc⟩
    have h2 : (l.filter fun a => q a && !p a) = l.filter q := by
      apply List.filter_congr
      intro y hy
      cases hqy : q y with
      | false => rfl
      | true =>
        cases hpy : p y with
        | false => rfl
        | true => exact absurd ⟨y, hy, hqy, hpy⟩ hx
    rw [h1, h2, List.nil_append]

theorem fieldsValue_field {env : Env} {all : List Field} {b : Body} : ∀ {fs : List Field} {earlier : List Nat} {vs : List Val},
    fieldsValue env all b earlier fs = some vs → ∀ pre f post, fs = pre ++ f :: post → fieldValue env all b (earlier ++ flatTypes pre) f ≠ none := by
  intro fs
  induction fs with
  | nil => intro _ _ _ pre f post h; simp at h
  | cons g fs ih =>
    intro earlier vs h pre f post hf
    rw [fieldsValue] at h
    cases h1 : fieldValue env all b earlier g with
    | none => rw [h1] at h; cases h
    | some v =>
      cases h2 : fieldsValue env all b (earlier ++ flatTypes [g]) fs with
      | none => rw [h1, h2] at h; cases h
      | some vs' =>
        cases pre with
        | nil =>
          simp only [List.nil_append, List.cons.injEq] at hf
          obtain ⟨rfl, -⟩ := hf
          simp [flatTypes, h1]
        | cons g' pre =>
          simp only [List.cons_append, List.cons.injEq] at hf
          obtain ⟨rfl, hf⟩ := hf
          have := ih h2 pre f post hf
          rw [List.append_assoc, ← flatTypes_append] at this
          exact this

theorem flatTypes_split : ∀ (l : List Field) (e : Nat) (es : List Nat), flatTypes l = e :: es →
    ∃ pre f post, l = pre ++ f :: post ∧ f.kind = .flatten e ∧ flatTypes pre = [] ∧ flatTypes post = es := by
  intro l
  induction l with
  | nil => intro e es h; simp [flatTypes] at h
  | cons f l ih =>
    intro e es h
    rw [flatTypes] at h
    split at h
    · rename_i e' hk
      simp only [List.cons.injEq] at h
      obtain ⟨rfl, h⟩ := h
      exact ⟨[], f, l, rfl, hk, rfl, h⟩
    · rename_i hk
      obtain ⟨pre, g, post, h1, h2, h3, h4⟩ := ih e es h
      refine ⟨f :: pre, g, post, by rw [h1]; rfl, h2, ?_, h4⟩
      rw [flatTypes]
      split
      · rename_i e' hk'
        exact absurd hk' (hk e')
      · exact h3

end Order

/-- C21 with two or more flattened fields: whatever can be read cannot be read any more when the children of the first flattened field are put first. -/
theorem C21_two_flattened (dbg : Bool) (env : Env) (hok : EnvOk env) (i : Nat) (htwo : 2 ≤ (flatTypes (env.strct i).fields).length) (d : Doc) (v : Val)
    (h : readTy dbg env (.strct i) d.input = .ok (.ok v)) :
    ∃ d' : Doc, d'.root.attrs = d.root.attrs ∧ (∀ n, d'.root.children.childrenNamed n = d.root.children.childrenNamed n) ∧
      d'.root.children.children.Perm d.root.children.children ∧ ∀ v', readTy dbg env (.strct i) d'.input ≠ .ok (.ok v') := by
  rw [C18_value dbg env hok] at h
  match hfl : flatTypes (env.strct i).fields, htwo with
  | e1 :: e2 :: es, _ =>
    obtain ⟨pre, f1, post, hf, hk1, hpre, hpost⟩ := Order.flatTypes_split _ _ _ hfl
    obtain ⟨mid, f2, rest, hf', hk2, hmid, -⟩ := Order.flatTypes_split _ _ _ hpost
    let mine : Elem → Bool := fun x => !declaredElem (env.strct i).fields x.name.expanded && (variantOf (env.enm e1) x.name.expanded).isSome
    let l := d.root.children.children.filter mine ++ d.root.children.children.filter fun x => !mine x
    refine ⟨{ d with root := { d.root with children := Order.row l } }, rfl, fun n => ?_, ?_, fun v' hv' => ?_⟩
    · change ((Order.row l).children.filter fun x => x.name.expanded == n) = d.root.children.children.filter fun x => x.name.expanded == n
      rw [Order.children_row]
      apply Order.filter_both
      intro x _ y _ hx hy
      simp only [mine, beq_iff_eq] at hx hy ⊢
      rw [hx, hy]
    · change (Order.row l).children.Perm d.root.children.children
      rw [Order.children_row]
      exact List.filter_append_perm mine _
    · -- something belongs to the first flattened field
      have hsome : ∃ x ∈ d.root.children.children, mine x = true := by
        simp only [bodyValue, structValue, Option.map_eq_some_iff] at h
        obtain ⟨vs, hvs, -⟩ := h
        have := Order.fieldsValue_field hvs pre f1 post hf
        simp only [fieldValue, hk1, hpre, List.append_nil, past] at this
        refine Classical.byContradiction fun hn => this ?_
        have hc : choices (env.enm e1) (strangers (env.strct i).fields (d.root.body env).kids) = [] := by
          unfold choices
          rw [List.filterMap_eq_nil_iff]
          intro k hkm
          simp only [Elem.body, kids_children, strangers, List.mem_filter, List.mem_map, Bool.not_eq_true'] at hkm
          obtain ⟨⟨x, hx, rfl⟩, hdec⟩ := hkm
          change declaredElem (env.strct i).fields x.name.expanded = false at hdec
          change Option.map _ (variantOf (env.enm e1) x.name.expanded) = none
          cases hv : variantOf (env.enm e1) x.name.expanded with
          | none => rfl
          | some j => exact absurd ⟨x, hx, by simp [mine, hdec, hv]⟩ hn
        rw [enumValue, hc]
      -- and comes first now
      rw [C18_value dbg env hok] at hv'
      simp only [bodyValue, structValue, Option.map_eq_some_iff] at hv'
      obtain ⟨vs, hvs, -⟩ := hv'
      have := Order.fieldsValue_field hvs (pre ++ f1 :: mid) f2 rest (by rw [hf, hf']; simp)
      apply this
      have hft : flatTypes (pre ++ f1 :: mid) = [e1] := by
        rw [flatTypes_append, hpre]
        simp [flatTypes, hk1, hmid]
      simp only [fieldValue, hk2, hft, List.nil_append, past, Elem.body, kids_children, Order.children_row]
      have hfirst : ∃ x l', l.filter (fun x => !declaredElem (env.strct i).fields x.name.expanded) = x :: l' ∧ (variantOf (env.enm e1) x.name.expanded).isSome = true := by
        obtain ⟨x, hx, hm⟩ := hsome
        cases hl : d.root.children.children.filter mine with
        | nil => exact absurd (List.mem_filter.mpr ⟨hx, hm⟩) (by rw [hl]; simp)
        | cons y l' =>
          have hy : mine y = true := (List.mem_filter.mp (by rw [hl]; exact List.mem_cons_self)).2
          simp only [mine, Bool.and_eq_true] at hy
          refine ⟨y, (l' ++ d.root.children.children.filter fun x => !mine x).filter (fun x => !declaredElem (env.strct i).fields x.name.expanded), ?_, hy.2⟩
          simp only [l, hl, List.cons_append, List.filter_cons, hy.1, if_true]
      obtain ⟨x, l', hl, hx⟩ := hfirst
      have hs : strangers (env.strct i).fields (l.map (Elem.kid env)) = Elem.kid env x :: l'.map (Elem.kid env) := by
        unfold strangers
        rw [List.filter_map]
        change (l.filter fun x => !declaredElem (env.strct i).fields x.name.expanded).map _ = _
        rw [hl]
        rfl
      rw [hs, List.takeWhile_cons]
      have : (variantOf (env.enm e1) (Elem.kid env x).name).isNone = false := by
        change (variantOf (env.enm e1) x.name.expanded).isNone = false
        cases hv : variantOf (env.enm e1) x.name.expanded with
        | none => rw [hv] at hx; cases hx
        | some j => rfl
      rw [this]
      rfl

/-- **C21, exactly.** The order of differently named children of a struct does not matter if and only if it has at most one flattened field (or no
document at all is one of the struct). -/
theorem C21_order_iff (dbg : Bool) (env : Env) (hok : EnvOk env) (i : Nat) :
    (∀ (d d' : Doc) (v : Val), d.root.attrs = d'.root.attrs →
      (∀ n, (d.root.children.childrenNamed n).map Elem.plain = (d'.root.children.childrenNamed n).map Elem.plain) →
      (readTy dbg env (.strct i) d.input = .ok (.ok v) ↔ readTy dbg env (.strct i) d'.input = .ok (.ok v))) ↔
    (flatTypes (env.strct i).fields).length ≤ 1 ∨ ∀ (d : Doc) v, readTy dbg env (.strct i) d.input ≠ .ok (.ok v) := by
  constructor
  · intro h
    by_cases hone : (flatTypes (env.strct i).fields).length ≤ 1
    · exact .inl hone
    · refine .inr fun d v hv => ?_
      obtain ⟨d', h1, h2, -, h3⟩ := C21_two_flattened dbg env hok i (by omega) d v hv
      exact h3 v ((h d d' v h1.symm fun n => by rw [h2 n]).mp hv)
  · rintro (hone | hno) d d' v ha hn
    · exact C21_order_irrelevant_partial dbg env hok i hone d d' ha hn v
    · exact ⟨fun h => absurd h (hno d v), fun h => absurd h (hno d' v)⟩

/-- **C21** for all structs, with any number of flattened fields: it is enough that the children of each element field keep their order, and those
that belong to no element field keep theirs; these two kinds may be mixed in any way. -/
theorem C21_mixed (dbg : Bool) (env : Env) (hok : EnvOk env) (i : Nat) (d d' : Doc) (ha : d.root.attrs = d'.root.attrs)
    (hn : ∀ f ∈ (env.strct i).fields, ∀ s, f.kind = .element s →
      (d.root.children.childrenNamed f.name.expanded).map Elem.plain = (d'.root.children.childrenNamed f.name.expanded).map Elem.plain)
    (hrest : (d.root.children.children.filter fun x => (env.strct i).fields.all fun f => match f.kind with | .element _ => f.name.expanded != x.name.expanded | _ => true).map Elem.plain =
      (d'.root.children.children.filter fun x => (env.strct i).fields.all fun f => match f.kind with | .element _ => f.name.expanded != x.name.expanded | _ => true).map Elem.plain)
    (v : Val) : readTy dbg env (.strct i) d.input = .ok (.ok v) ↔ readTy dbg env (.strct i) d'.input = .ok (.ok v) := by
  rw [C18_value dbg env hok, C18_value dbg env hok]
  have hh : ∀ l : List Elem, (l.map (Elem.kid env)).map Kid.canon = (l.map Elem.plain).map fun x => (Elem.kid env x).canon := by
    intro l
    simp only [List.map_map]
    apply List.map_congr_left
    intro x _
    exact (kid_plain env x).symm
  have hst : ∀ f : Forest, (strangers (env.strct i).fields (kids env f)).map Kid.canon =
      ((f.children.filter fun x => (env.strct i).fields.all fun f => match f.kind with | .element _ => f.name.expanded != x.name.expanded | _ => true).map Elem.plain).map
        fun x => (Elem.kid env x).canon := by
    intro f
    rw [← hh, kids_children, strangers, List.filter_map]
    congr 2
    apply List.filter_congr
    intro x _
    change (!declaredElem (env.strct i).fields x.name.expanded) = _
    unfold declaredElem
    rw [List.not_any_eq_all_not]
    congr 1
    funext f
    cases hk : f.kind <;> simp [bne]
  have : bodyValue env (d.root.body env) (.strct i) = bodyValue env (d'.root.body env) (.strct i) := by
    simp only [bodyValue, structValue]
    rw [fieldsValue_congr env (env.strct i).fields (d.root.body env) (d'.root.body env) [] (env.strct i).fields]
    intro pre f post hf
    unfold fieldValue
    split
    · rename_i s hk
      apply slotValue_canon_eq
      simp only [Elem.body, named_children]
      rw [hh, hh, hn f (by rw [hf]; simp) s hk]
    · simp only [Elem.body, ha]
    · rename_i e hk
      have h1 := hst d.root.children
      have h2 := hst d'.root.children
      rw [hrest, ← h2] at h1
      have hp : ∀ (es : List Nat) (ks ks' : List Kid), ks.map Kid.canon = ks'.map Kid.canon → (past env es ks).map Kid.canon = (past env es ks').map Kid.canon := by
        intro es
        induction es with
        | nil => exact fun _ _ h => h
        | cons e es ih =>
          intro ks ks' h
          apply ih
          have ht : ∀ l : List Kid, (l.takeWhile fun k => (variantOf (env.enm e) k.name).isNone).map Kid.canon =
              (l.map Kid.canon).takeWhile fun k => (variantOf (env.enm e) k.name).isNone := by
            intro l
            rw [List.takeWhile_map]
            congr 1
          rw [ht, ht, h]
      apply enumValue_named env hok
      intro n
      have h3 := hp (flatTypes pre) _ _ h1
      have hq : ∀ l : List Kid, (named n l).map Kid.canon = named n (l.map Kid.canon) := by
        intro l
        unfold named
        rw [List.filter_map]
        congr 1
      rw [hq, hq]
      simp only [Elem.body, List.nil_append]
      rw [h3]
    · rfl
  rw [this]

/-- The struct with two flattened fields of `C21_two_flattened_counterexample`: what can be read. -/
example : EnvOk Ex.env ∧ 2 ≤ (flatTypes (Ex.env.strct 2).fields).length ∧
    readTy true Ex.env (.strct 2) (Ex.docOf [] (Ex.empt (Ex.q "x") (Ex.empt (Ex.q "a") .nil))).input = .ok (.ok (.strct [.enm 0 none, .enm 0 none])) :=
  ⟨Ex.env_ok, by decide, rfl⟩

end SX
