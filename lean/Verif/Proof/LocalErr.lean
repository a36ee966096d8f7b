import Verif.Spec.LocalErr

namespace SX.LocalErr
open SX.Spec

/-- The names of two lists of children are the same. -/
def Alike (l l' : List Kid) : Prop := l.map Kid.name = l'.map Kid.name

theorem Alike.nil {l l' : List Kid} (h : Alike l l') : l = [] ↔ l' = [] := by
  have : l.length = l'.length := by simpa [Alike] using congrArg List.length h
  rw [← List.length_eq_zero_iff, this, List.length_eq_zero_iff]

theorem Alike.filter {l l' : List Kid} (h : Alike l l') (p : EName → Bool) : Alike (l.filter fun k => p k.name) (l'.filter fun k => p k.name) := by
  have e : ∀ l : List Kid, (l.filter fun k => p k.name).map Kid.name = (l.map Kid.name).filter p := fun l => by rw [List.filter_map]; rfl
  simp only [Alike] at h ⊢
  rw [e, e, h]

theorem Alike.takeWhile {l l' : List Kid} (h : Alike l l') (p : EName → Bool) : Alike (l.takeWhile fun k => p k.name) (l'.takeWhile fun k => p k.name) := by
  have e : ∀ l : List Kid, (l.takeWhile fun k => p k.name).map Kid.name = (l.map Kid.name).takeWhile p := fun l => by rw [List.takeWhile_map]; rfl
  simp only [Alike] at h ⊢
  rw [e, e, h]

theorem Alike.named {l l' : List Kid} (h : Alike l l') (n : EName) : Alike (named n l) (named n l') := h.filter fun m => m == n

theorem Alike.strangers {l l' : List Kid} (h : Alike l l') (fields : List Field) : Alike (strangers fields l) (strangers fields l') :=
  h.filter fun m => !declaredElem fields m

theorem Alike.past {l l' : List Kid} (h : Alike l l') (env : Env) (es : List Nat) : Alike (past env es l) (past env es l') := by
  induction es generalizing l l' with
  | nil => exact h
  | cons e es ih => exact ih (h.takeWhile fun m => (variantOf (env.enm e) m).isNone)

theorem Alike.choices {l l' : List Kid} (h : Alike l l') (d : EnumDef) : (choices d l).map Prod.fst = (choices d l').map Prod.fst := by
  have e : ∀ l : List Kid, (Spec.choices d l).map Prod.fst = (l.map Kid.name).filterMap (variantOf d) := fun l => by
    induction l with
    | nil => rfl
    | cons k l ih =>
      simp only [Spec.choices, List.filterMap_cons, List.map_cons] at ih ⊢
      cases variantOf d k.name <;> simp [ih]
  simp only [Alike] at h
  rw [e, e, h]

theorem Alike.choices_nil {l l' : List Kid} (h : Alike l l') (d : EnumDef) : Spec.choices d l = [] ↔ Spec.choices d l' = [] := by
  rw [← List.map_eq_nil_iff (f := Prod.fst), h.choices d, List.map_eq_nil_iff]

theorem slotErr_alike (s : Slot) {l l' : List Kid} (h : l = [] ↔ l' = []) (k : Kid) : slotErr s l k = slotErr s l' k := by
  simp only [slotErr, ne_eq, h]

theorem variantErr_alike (d : EnumDef) (j : Nat) {l l' : List Kid} (h : l = [] ↔ l' = []) (k : Kid) : variantErr d j l k = variantErr d j l' k := by
  simp only [variantErr, slotErr_alike _ h]

theorem enumErr_alike (d : EnumDef) {l l' : List Kid} (h : Alike l l') (k : Kid) : enumErr d l k = enumErr d l' k := by
  have hc := h.choices d
  simp only [enumErr]
  cases variantOf d k.name with
  | none => rfl
  | some j =>
    cases h1 : choices d l with
    | nil =>
      rw [h1] at hc
      rw [List.map_eq_nil_iff.mp hc.symm]
    | cons c rest =>
      cases h2 : choices d l' with
      | nil => rw [h1, h2] at hc; simp at hc
      | cons c' rest' =>
        rw [h1, h2] at hc
        simp only [List.map_cons, List.cons.injEq] at hc
        obtain ⟨i, k0⟩ := c
        obtain ⟨i', k0'⟩ := c'
        obtain ⟨rfl, -⟩ := hc
        simp only [variantErr_alike d i (l := k0 :: rest.map Prod.snd) (l' := k0' :: rest'.map Prod.snd) (by simp)]

theorem flatErr_alike (env : Env) (es : List Nat) {l l' : List Kid} (h : Alike l l') (k : Kid) : flatErr env es l k = flatErr env es l' k := by
  induction es with
  | nil => rfl
  | cons e es ih => simp only [flatErr, h.choices_nil, enumErr_alike _ h, ih]

theorem structErr_alike (env : Env) (fields : List Field) {l l' : List Kid} (h : Alike l l') (k : Kid) :
    structErr env fields l k = structErr env fields l' k := by
  simp only [structErr, slotErr_alike _ (h.named k.name).nil, flatErr_alike env _ (h.strangers fields)]

theorem scan_alike {β : Type} (f : List Kid → Kid → Option β) (hf : ∀ l l' k, Alike l l' → f l k = f l' k) {seen seen' : List Kid} (h : Alike seen seen') (l : List Kid) :
    scan f seen l = scan f seen' l := by
  induction l generalizing seen seen' with
  | nil => rfl
  | cons k l ih =>
    simp only [scan, hf seen seen' k h]
    rw [ih (seen := seen ++ [k]) (seen' := seen' ++ [k]) (by simp only [Alike, List.map_append] at h ⊢; rw [h])]

theorem gap_alike (env : Env) (all : List Field) (attrs : List XAttr) (t : String) {l l' : List Kid} (h : Alike l l') (earlier : List Nat) (fs : List Field) :
    gap env all ⟨attrs, l, t⟩ earlier fs = gap env all ⟨attrs, l', t⟩ earlier fs := by
  induction fs generalizing earlier with
  | nil => rfl
  | cons f fs ih =>
    simp only [gap, ih, (h.named _).nil, ((h.strangers all).past env earlier).choices_nil]

/-- What is wrong with a child in itself, as the content around it reports it. -/
def own (k : Kid) (ty : Ty) : Option (List StackElem × ErrKind) := (k.err ty).map fun d => (k.node :: d.rel, d.kind)

/-- A complaint about a child at a node: the same for all of them, or what is wrong with the child in itself as some type. -/
def Blame (nd : StackElem) (F : Kid → Option (List StackElem × ErrKind)) : Prop :=
  (∃ r, ∀ k, k.node = nd → F k = r) ∨ ∃ ty, ∀ k, k.node = nd → F k = own k ty

theorem slot_blame (nd : StackElem) (s : Slot) (seen : List Kid) : Blame nd (slotErr s seen) := by
  by_cases h : s.card ≠ .many ∧ seen ≠ []
  · refine .inl ⟨some ([nd], .deserializer (.duplicateElement nd.name.expanded)), fun k hk => ?_⟩
    rw [slotErr, if_pos h, Kid.name, hk]
  · exact .inr ⟨s.ty, fun k _ => by rw [slotErr, if_neg h]; rfl⟩

theorem variant_blame (nd : StackElem) (d : EnumDef) (j : Nat) (seen : List Kid) : Blame nd (variantErr d j seen) := by
  unfold variantErr
  cases d.variants[j]? with
  | none => exact .inl ⟨none, fun _ _ => rfl⟩
  | some v =>
    cases hs : v.slot with
    | none => exact .inl ⟨none, fun _ _ => by simp only [hs]⟩
    | some s =>
      simp only [hs]
      exact slot_blame nd s seen

theorem Blame.congr {nd : StackElem} {F G : Kid → Option (List StackElem × ErrKind)} (h : Blame nd F) (e : ∀ k, k.node = nd → G k = F k) : Blame nd G := by
  rcases h with ⟨r, h⟩ | ⟨ty, h⟩
  · exact .inl ⟨r, fun k hk => (e k hk).trans (h k hk)⟩
  · exact .inr ⟨ty, fun k hk => (e k hk).trans (h k hk)⟩

theorem enum_blame (nd : StackElem) (d : EnumDef) (seen : List Kid) : Blame nd (enumErr d seen) := by
  have key : ∀ k : Kid, k.node = nd → k.name = nd.name.expanded := fun k hk => by rw [Kid.name, hk]
  cases hv : variantOf d nd.name.expanded with
  | none => exact .inl ⟨none, fun k hk => by simp only [enumErr, key k hk, hv]⟩
  | some j =>
    cases hc : choices d seen with
    | nil => exact (variant_blame nd d j []).congr fun k hk => by simp only [enumErr, key k hk, hv, hc]
    | cons c rest =>
      obtain ⟨i, k0⟩ := c
      by_cases hj : j = i
      · exact (variant_blame nd d i (k0 :: rest.map Prod.snd)).congr fun k hk => by simp only [enumErr, key k hk, hv, hc, if_pos hj]
      · cases hi : d.variants[i]? with
        | none => exact .inl ⟨none, fun k hk => by simp only [enumErr, key k hk, hv, hc, if_neg hj, hi]⟩
        | some v =>
          exact .inl ⟨some ([nd], .deserializer (.unexpectedElement nd.name.expanded v.name.expanded)), fun k hk => by
            simp only [enumErr, key k hk, hv, hc, if_neg hj, hi, hk]⟩

theorem flat_blame (nd : StackElem) (env : Env) (es : List Nat) (seen : List Kid) : Blame nd (flatErr env es seen) := by
  induction es with
  | nil => exact .inl ⟨none, fun _ _ => rfl⟩
  | cons e es ih =>
    by_cases h : choices (env.enm e) seen = [] ∧ variantOf (env.enm e) nd.name.expanded = none
    · exact ih.congr fun k hk => by rw [flatErr, Kid.name, hk, if_pos h]
    · exact (enum_blame nd (env.enm e) seen).congr fun k hk => by rw [flatErr, Kid.name, hk, if_neg h]

theorem struct_blame (nd : StackElem) (env : Env) (fields : List Field) (seen : List Kid) : Blame nd (structErr env fields seen) := by
  cases h : elemSlot fields nd.name.expanded with
  | none => exact (flat_blame nd env _ _).congr fun k hk => by rw [structErr, Kid.name, hk, h]
  | some s => exact (slot_blame nd s (named nd.name.expanded seen)).congr fun k hk => by rw [structErr, Kid.name, hk, h]

theorem scan_split {α β : Type} (f : List α → α → Option β) (seen a b : List α) : scan f seen (a ++ b) = (scan f seen a).or (scan f (seen ++ a) b) := by
  induction a generalizing seen with
  | nil => simp [scan]
  | cons x a ih =>
    simp only [List.cons_append, scan]
    cases f seen x with
    | some r => rfl
    | none => simp [ih]

/-- The defect that a complaint is. -/
def early (x : List StackElem × ErrKind) : Defect := ⟨x.1, x.2, false⟩

/-- The first defect of content with a child at a node: the same for all of them, or the child's own if it has one as some type, and otherwise the same for all of them. -/
def Reports (nd : StackElem) (F : Kid → Option Defect) : Prop :=
  (∃ r, ∀ k, k.node = nd → F k = r) ∨ ∃ ty r, ∀ k, k.node = nd → F k = ((own k ty).map early).or r

theorem scan_reports {nd : StackElem} {f : List Kid → Kid → Option (List StackElem × ErrKind)} (hf : ∀ l l' k, Alike l l' → f l k = f l' k) (a b : List Kid)
    (hb : Blame nd (f a)) {R : Kid → Option Defect} (hR : ∀ k k' : Kid, k.node = nd → k'.node = nd → R k = R k') :
    Reports nd fun k => ((scan f [] (a ++ k :: b)).map early).or (R k) := by
  have e : ∀ k, scan f [] (a ++ k :: b) = (scan f [] a).or ((f a k).or (scan f (a ++ [k]) b)) := fun k => by
    rw [scan_split]
    simp only [List.nil_append, scan]
    cases f a k <;> rfl
  by_cases hne : ∃ k : Kid, k.node = nd
  · obtain ⟨k0, hk0⟩ := hne
    have e' : ∀ k, k.node = nd → scan f (a ++ [k]) b = scan f (a ++ [k0]) b := fun k hk =>
      scan_alike f hf (by simp [Alike, Kid.name, hk, hk0]) b
    rcases hb with ⟨r, h⟩ | ⟨ty, h⟩
    · exact .inl ⟨(((scan f [] a).or (r.or (scan f (a ++ [k0]) b))).map early).or (R k0), fun k hk => by simp only [e, h k hk, e' k hk, hR k k0 hk hk0]⟩
    · cases hs : scan f [] a with
      | some r => exact .inl ⟨some (early r), fun k hk => by simp [e, hs]⟩
      | none =>
        refine .inr ⟨ty, ((scan f (a ++ [k0]) b).map early).or (R k0), fun k hk => ?_⟩
        simp only [e, hs, h k hk, e' k hk, hR k k0 hk hk0, Option.none_or]
        cases own k ty <;> simp
  · exact .inl ⟨none, fun k hk => absurd ⟨k, hk⟩ hne⟩

theorem body_reports (env : Env) (nd : StackElem) (attrs : List XAttr) (a b : List Kid) (t : String) (ty : Ty) :
    Reports nd fun k => bodyErr env ⟨attrs, a ++ k :: b, t⟩ ty := by
  have al : ∀ k k' : Kid, k.node = nd → k'.node = nd → Alike (a ++ k :: b) (a ++ k' :: b) := fun k k' h h' => by simp [Alike, Kid.name, h, h']
  cases ty with
  | text tt =>
    cases a with
    | nil => exact .inl ⟨some ⟨[nd], .msg (.elementInString nd.name), false⟩, fun k hk => by simp [bodyErr, hk]⟩
    | cons x a => exact .inl ⟨some ⟨[x.node], .msg (.elementInString x.node.name), false⟩, fun k hk => by simp [bodyErr]⟩
  | strct i =>
    cases ha : scan (attrErr (env.strct i).fields) [] attrs with
    | some kind => exact .inl ⟨some ⟨[], kind, false⟩, fun k _ => by simp only [bodyErr, ha]⟩
    | none =>
      have := scan_reports (nd := nd) (f := structErr env (env.strct i).fields) (fun l l' k h => structErr_alike env _ h k) a b (struct_blame nd env _ a)
        (R := fun k => (gap env (env.strct i).fields ⟨attrs, a ++ k :: b, t⟩ [] (env.strct i).fields).map fun kind => ⟨[], kind, true⟩)
        (fun k k' h h' => by (try dsimp only); rw [gap_alike env _ attrs t (al k k' h h')])
      have e : (fun k => bodyErr env ⟨attrs, a ++ k :: b, t⟩ (.strct i)) = fun k => ((scan (structErr env (env.strct i).fields) [] (a ++ k :: b)).map early).or
          ((gap env (env.strct i).fields ⟨attrs, a ++ k :: b, t⟩ [] (env.strct i).fields).map fun kind => ⟨[], kind, true⟩) := by
        funext k
        simp only [bodyErr, ha]
        cases scan (structErr env (env.strct i).fields) [] (a ++ k :: b) <;> simp [early]
      rw [e]
      exact this
  | enm i =>
    have := scan_reports (nd := nd) (f := enumErr (env.enm i)) (fun l l' k h => enumErr_alike _ h k) a b (enum_blame nd _ a)
      (R := fun k => if choices (env.enm i) (a ++ k :: b) = [] then some ⟨[], .deserializer (.cantBeEmpty (env.enm i).ident), true⟩ else none)
      (fun k k' h h' => by simp only [(al k k' h h').choices_nil])
    have e : (fun k => bodyErr env ⟨attrs, a ++ k :: b, t⟩ (.enm i)) = fun k => ((scan (enumErr (env.enm i)) [] (a ++ k :: b)).map early).or
        (if choices (env.enm i) (a ++ k :: b) = [] then some ⟨[], .deserializer (.cantBeEmpty (env.enm i).ident), true⟩ else none) := by
      funext k
      simp only [bodyErr]
      cases scan (enumErr (env.enm i)) [] (a ++ k :: b) <;> simp [early]
    rw [e]
    exact this

/-- What is wrong with an element in itself, as it is reported below the elements of a path. -/
def ownAt (env : Env) (path : List StackElem) (nd : StackElem) (x : Elem) (ty : Ty) : Option (List StackElem × ErrKind) :=
  (bodyErr env (x.body env) ty).map fun d => (path ++ nd :: d.rel, d.kind)

theorem text_within {path : List StackElem} {c : Elem → Forest} (h : Within path c) (x y : Elem) : (c x).text = (c y).text := by
  induction h with
  | here rest => rfl
  | inside _ _ _ _ _ rest _ ih => rfl
  | elem _ _ _ _ _ _ _ ih => simpa [Forest.text] using ih
  | chars s _ _ _ ih => simp only [Forest.text, ih]
  | misc _ _ _ ih => simpa [Forest.text] using ih

theorem within_kids (env : Env) (nd : StackElem) {path : List StackElem} {c : Elem → Forest} (hc : Within path c) :
    ∃ (a b : List Kid) (nd' : StackElem) (K : Elem → Kid), (∀ x, kids env (c x) = a ++ K x :: b) ∧ (∀ x : Elem, x.At nd → (K x).node = nd') ∧
      ∀ ty, (∃ r, ∀ x : Elem, x.At nd → own (K x) ty = r) ∨ ∃ ty' r, ∀ x : Elem, x.At nd → own (K x) ty = (ownAt env path nd x ty').or r := by
  induction hc with
  | here rest =>
    refine ⟨[], kids env rest, nd, _, fun x => rfl, fun x hx => by simp [hx.1, hx.2], fun ty => .inr ⟨ty, none, fun x hx => ?_⟩⟩
    simp [own, ownAt, Elem.body, hx.1, hx.2]
  | @inside name attrs ns pos endPos rest path c h ih =>
    obtain ⟨a, b, nd', K, h1, h2, h3⟩ := ih
    refine ⟨[], kids env rest, ⟨name, pos⟩, _, fun x => rfl, fun x _ => rfl, fun ty => ?_⟩
    have ht := text_within h
    by_cases hne : ∃ x0 : Elem, x0.At nd
    · obtain ⟨x0, hx0⟩ := hne
      have e : ∀ x, own ⟨⟨name, pos⟩, bodyValue env ⟨attrs, kids env (c x), (c x).text⟩, bodyBad env ⟨attrs, kids env (c x), (c x).text⟩,
          bodyErr env ⟨attrs, kids env (c x), (c x).text⟩⟩ ty =
          (bodyErr env ⟨attrs, a ++ K x :: b, (c x0).text⟩ ty).map fun d => (⟨name, pos⟩ :: d.rel, d.kind) := fun x => by
        rw [own, h1 x, ht x x0]
      rcases body_reports env nd' attrs a b (c x0).text ty with ⟨r, h4⟩ | ⟨ty1, r, h4⟩
      · exact .inl ⟨r.map fun d => (⟨name, pos⟩ :: d.rel, d.kind), fun x hx => by rw [e, show bodyErr env _ ty = _ from h4 (K x) (h2 x hx)]⟩
      · rcases h3 ty1 with ⟨r', h5⟩ | ⟨ty2, r', h5⟩
        · exact .inl ⟨((r'.map early).or r).map fun d => (⟨name, pos⟩ :: d.rel, d.kind), fun x hx => by rw [e, show bodyErr env _ ty = _ from h4 (K x) (h2 x hx), h5 x hx]⟩
        · refine .inr ⟨ty2, ((r'.map early).or r).map fun d => (⟨name, pos⟩ :: d.rel, d.kind), fun x hx => ?_⟩
          rw [e, show bodyErr env _ ty = _ from h4 (K x) (h2 x hx), h5 x hx]
          simp only [ownAt]
          cases bodyErr env (x.body env) ty2 <;> simp [early]
    · exact .inl ⟨none, fun x hx => absurd ⟨x, hx⟩ hne⟩
  | @elem name attrs ns pos children endPos path c h ih =>
    obtain ⟨a, b, nd', K, h1, h2, h3⟩ := ih
    exact ⟨_ :: a, b, nd', K, fun x => by rw [kids, h1 x]; rfl, h2, h3⟩
  | chars s cdata pos h ih =>
    obtain ⟨a, b, nd', K, h1, h2, h3⟩ := ih
    exact ⟨a, b, nd', K, fun x => by rw [kids, h1 x], h2, h3⟩
  | misc m pos h ih =>
    obtain ⟨a, b, nd', K, h1, h2, h3⟩ := ih
    exact ⟨a, b, nd', K, fun x => by rw [kids, h1 x], h2, h3⟩

theorem root_reports (env : Env) (nd : StackElem) {path : List StackElem} {c : Elem → Forest} (hc : Within path c) (attrs : List XAttr) (ty : Ty) :
    (∃ r, ∀ x : Elem, x.At nd → bodyErr env ⟨attrs, kids env (c x), (c x).text⟩ ty = r) ∨
    ∃ ty' r, ∀ x : Elem, x.At nd → bodyErr env ⟨attrs, kids env (c x), (c x).text⟩ ty = ((ownAt env path nd x ty').map early).or r := by
  by_cases hne : ∃ x0 : Elem, x0.At nd
  · obtain ⟨x0, hx0⟩ := hne
    obtain ⟨a, b, nd', K, h1, h2, h3⟩ := within_kids env nd hc
    rcases body_reports env nd' attrs a b (c x0).text ty with ⟨r, h4⟩ | ⟨ty1, r, h4⟩
    · exact .inl ⟨r, fun x hx => by rw [h1, text_within hc x x0]; exact h4 (K x) (h2 x hx)⟩
    · rcases h3 ty1 with ⟨r', h5⟩ | ⟨ty2, r', h5⟩
      · exact .inl ⟨(r'.map early).or r, fun x hx => by rw [h1, text_within hc x x0, show bodyErr env _ ty = _ from h4 (K x) (h2 x hx), h5 x hx]⟩
      · refine .inr ⟨ty2, (r'.map early).or r, fun x hx => ?_⟩
        rw [h1, text_within hc x x0, show bodyErr env _ ty = _ from h4 (K x) (h2 x hx), h5 x hx]
        cases ownAt env path nd x ty2 <;> simp
  · exact .inl ⟨none, fun x hx => absurd ⟨x, hx⟩ hne⟩

end SX.LocalErr
