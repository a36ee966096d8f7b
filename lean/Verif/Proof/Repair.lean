import Verif.Proof.Reproduce

namespace SX.Repair
open SX.Spec SX.LocalErr SX.Reproduce

/-- A complaint is about a child of a node being there at all. -/
def OddAt (nd : StackElem) (x : List StackElem × ErrKind) : Prop :=
  x.1 = [nd] ∧ (x.2 = .deserializer (.duplicateElement nd.name.expanded) ∨ (∃ n, x.2 = .deserializer (.unexpectedElement nd.name.expanded n)) ∨ x.2 = .msg (.elementInString nd.name))

/-- As `Blame`; what is the same for all is about the child being there at all. -/
def Blames (nd : StackElem) (F : Kid → Option (List StackElem × ErrKind)) : Prop :=
  (∀ k x, k.node = nd → F k = some x → OddAt nd x) ∨ ∃ ty, ∀ k, k.node = nd → F k = own k ty

theorem slot_blames (nd : StackElem) (s : Slot) (seen : List Kid) : Blames nd (slotErr s seen) := by
  by_cases h : s.card ≠ .many ∧ seen ≠ []
  · refine .inl fun k x hk hx => ?_
    rw [slotErr, if_pos h, Kid.name, hk] at hx
    cases hx
    exact ⟨rfl, .inl rfl⟩
  · exact .inr ⟨s.ty, fun k _ => by rw [slotErr, if_neg h]; rfl⟩

theorem variant_blames (nd : StackElem) (d : EnumDef) (j : Nat) (seen : List Kid) : Blames nd (variantErr d j seen) := by
  unfold variantErr
  cases d.variants[j]? with
  | none => exact .inl fun _ _ _ hx => by cases hx
  | some v =>
    cases hs : v.slot with
    | none => exact .inl fun _ _ _ hx => by simp only [hs] at hx; cases hx
    | some s =>
      simp only [hs]
      exact slot_blames nd s seen

theorem Blames.congr {nd : StackElem} {F G : Kid → Option (List StackElem × ErrKind)} (h : Blames nd F) (e : ∀ k, k.node = nd → G k = F k) : Blames nd G := by
  rcases h with h | ⟨ty, h⟩
  · exact .inl fun k x hk hx => h k x hk ((e k hk).symm.trans hx)
  · exact .inr ⟨ty, fun k hk => (e k hk).trans (h k hk)⟩

theorem enum_blames (nd : StackElem) (d : EnumDef) (seen : List Kid) : Blames nd (enumErr d seen) := by
  have key : ∀ k : Kid, k.node = nd → k.name = nd.name.expanded := fun k hk => by rw [Kid.name, hk]
  cases hv : variantOf d nd.name.expanded with
  | none => exact .inl fun k x hk hx => by simp only [enumErr, key k hk, hv] at hx; cases hx
  | some j =>
    cases hc : choices d seen with
    | nil => exact (variant_blames nd d j []).congr fun k hk => by simp only [enumErr, key k hk, hv, hc]
    | cons c rest =>
      obtain ⟨i, k0⟩ := c
      by_cases hj : j = i
      · exact (variant_blames nd d i (k0 :: rest.map Prod.snd)).congr fun k hk => by simp only [enumErr, key k hk, hv, hc, if_pos hj]
      · cases hi : d.variants[i]? with
        | none => exact .inl fun k x hk hx => by simp only [enumErr, key k hk, hv, hc, if_neg hj, hi] at hx; cases hx
        | some v =>
          refine .inl fun k x hk hx => ?_
          simp only [enumErr, key k hk, hv, hc, if_neg hj, hi, hk, Option.some.injEq] at hx
          subst hx
          exact ⟨rfl, .inr (.inl ⟨_, rfl⟩)⟩

theorem flat_blames (nd : StackElem) (env : Env) (es : List Nat) (seen : List Kid) : Blames nd (flatErr env es seen) := by
  induction es with
  | nil => exact .inl fun _ _ _ hx => by cases hx
  | cons e es ih =>
    by_cases h : choices (env.enm e) seen = [] ∧ variantOf (env.enm e) nd.name.expanded = none
    · exact ih.congr fun k hk => by rw [flatErr, Kid.name, hk, if_pos h]
    · exact (enum_blames nd (env.enm e) seen).congr fun k hk => by rw [flatErr, Kid.name, hk, if_neg h]

theorem struct_blames (nd : StackElem) (env : Env) (fields : List Field) (seen : List Kid) : Blames nd (structErr env fields seen) := by
  cases h : elemSlot fields nd.name.expanded with
  | none => exact (flat_blames nd env _ _).congr fun k hk => by rw [structErr, Kid.name, hk, h]
  | some s => exact (slot_blames nd s (named nd.name.expanded seen)).congr fun k hk => by rw [structErr, Kid.name, hk, h]

/-- A scan that finds something: it is about a child being there at all, or the child's own, and would be that of any child in its place. -/
theorem scan_blames {f : List Kid → Kid → Option (List StackElem × ErrKind)} (hf : ∀ l l' k, Alike l l' → f l k = f l' k) (hb : ∀ nd seen, Blames nd (f seen))
    {ks : List Kid} {x : List StackElem × ErrKind} (hx : scan f [] ks = some x) :
    (∃ nd, OddAt nd x) ∨ ∃ a k b ty df, ks = a ++ k :: b ∧ k.err ty = some df ∧ x = (k.node :: df.rel, df.kind) ∧
      ∀ k', k'.node = k.node → scan f [] (a ++ k' :: b) = (own k' ty).or (scan f (a ++ [k]) b) := by
  obtain ⟨a, k, b, h1, h2, h3⟩ := (scan_spec f [] ks x).mp hx
  rw [List.nil_append] at h2
  rcases hb k.node a with h | ⟨ty, h⟩
  · exact .inl ⟨_, h k x rfl h2⟩
  · rw [h k rfl] at h2
    obtain ⟨df, h4, h5⟩ := Option.map_eq_some_iff.mp h2
    refine .inr ⟨a, k, b, ty, df, h1, h4, h5.symm, fun k' hk' => ?_⟩
    have ha : scan f [] a = none := by
      cases ha : scan f [] a with
      | none => rfl
      | some y =>
        obtain ⟨p, z, q, e1, e2, -⟩ := (scan_spec f [] a y).mp ha
        rw [List.nil_append] at e2
        have := h3 p z q e1
        rw [List.nil_append, e2] at this
        cases this
    rw [scan_split, ha, Option.none_or, List.nil_append, scan, h k' hk', scan_alike f hf (seen := a ++ [k']) (seen' := a ++ [k]) (by simp [Alike, Kid.name, hk'])]
    cases own k' ty <;> rfl

theorem near_odd {nd : StackElem} {x : List StackElem × ErrKind} (h : OddAt nd x) : Near (early x) := .inr ⟨nd, h.1, h.2⟩

/-- A defect of content is near, or a child's own, and then what is wrong with the content is what is wrong with the child first, whatever it is. -/
theorem body_repair {env : Env} {attrs : List XAttr} {ks : List Kid} {t : String} {ty : Ty} {df : Defect} (h : bodyErr env ⟨attrs, ks, t⟩ ty = some df) :
    Near df ∨ ∃ a k b ty' df' r, ks = a ++ k :: b ∧ k.err ty' = some df' ∧ df = early (k.node :: df'.rel, df'.kind) ∧
      ∀ k', k'.node = k.node → bodyErr env ⟨attrs, a ++ k' :: b, t⟩ ty = ((own k' ty').map early).or r := by
  cases ty with
  | text tt =>
    simp only [bodyErr] at h
    split at h
    · split at h
      · cases h; exact .inl (.inl rfl)
      · cases h
    · cases h
      exact .inl (.inr ⟨_, rfl, .inr (.inr rfl)⟩)
  | strct i =>
    simp only [bodyErr] at h
    cases ha : scan (attrErr (env.strct i).fields) [] attrs with
    | some kind => rw [ha] at h; cases h; exact .inl (.inl rfl)
    | none =>
      simp only [ha] at h
      split at h
      · next rel kind hx =>
        cases h
        rcases scan_blames (fun l l' k h => structErr_alike env _ h k) (fun nd seen => struct_blames nd env _ seen) hx with ⟨nd, ho⟩ | ⟨a, k, b, ty', df', h1, h2, h3, h4⟩
        · exact .inl (near_odd ho)
        · refine .inr ⟨a, k, b, ty', df', ((scan (structErr env (env.strct i).fields) (a ++ [k]) b).map early).or
            ((gap env (env.strct i).fields ⟨attrs, a ++ k :: b, t⟩ [] (env.strct i).fields).map fun kind => ⟨[], kind, true⟩), h1, h2, by rw [← h3]; rfl, fun k' hk' => ?_⟩
          simp only [bodyErr, ha, h4 k' hk']
          rw [gap_alike env _ attrs t (l := a ++ k' :: b) (l' := a ++ k :: b) (by simp [Alike, Kid.name, hk'])]
          cases own k' ty' with
          | some x => simp [early]
          | none => cases scan (structErr env (env.strct i).fields) (a ++ [k]) b <;> simp [early]
      · obtain ⟨kind, -, rfl⟩ := Option.map_eq_some_iff.mp h
        exact .inl (.inl rfl)
  | enm i =>
    simp only [bodyErr] at h
    split at h
    · next rel kind hx =>
      cases h
      rcases scan_blames (fun l l' k h => enumErr_alike _ h k) (fun nd seen => enum_blames nd _ seen) hx with ⟨nd, ho⟩ | ⟨a, k, b, ty', df', h1, h2, h3, h4⟩
      · exact .inl (near_odd ho)
      · refine .inr ⟨a, k, b, ty', df', ((scan (enumErr (env.enm i)) (a ++ [k]) b).map early).or
          (if choices (env.enm i) (a ++ k :: b) = [] then some ⟨[], .deserializer (.cantBeEmpty (env.enm i).ident), true⟩ else none), h1, h2, by rw [← h3]; rfl, fun k' hk' => ?_⟩
        have hc := Alike.choices_nil (l := a ++ k' :: b) (l' := a ++ k :: b) (by simp [Alike, Kid.name, hk']) (env.enm i)
        simp only [bodyErr, h4 k' hk', hc]
        cases own k' ty' with
        | some x => simp [early]
        | none => cases scan (enumErr (env.enm i)) (a ++ [k]) b <;> simp [early]
    · split at h
      · cases h; exact .inl (.inl rfl)
      · cases h

/-- The same for a child's defect, down to the element it is near. -/
theorem kid_repair (env : Env) : (f : Forest) → ∀ a k b, kids env f = a ++ k :: b → ∀ ty df, k.err ty = some df →
    ∃ (path : List StackElem) (c : Elem → Forest) (x : Elem) (ty' : Ty) (df' : Defect) (K : Elem → Kid) (r : Option (List StackElem × ErrKind)), Within path c ∧ c x = f ∧ bodyErr env (x.body env) ty' = some df' ∧ Near df' ∧ k.node :: df.rel = path ++ ⟨x.name, x.pos⟩ :: df'.rel ∧ df.kind = df'.kind ∧
      ∀ y : Elem, y.At ⟨x.name, x.pos⟩ → kids env (c y) = a ++ K y :: b ∧ (K y).node = k.node ∧ own (K y) ty = (ownAt env path ⟨x.name, x.pos⟩ y ty').or r
  | .nil, a, k, b, hk, _, _, _ => by simp [kids] at hk
  | .elem n at' ns p ch ep rest, a, k, b, hk, ty, df, h => by
    rw [kids] at hk
    cases a with
    | nil =>
      simp only [List.nil_append, List.cons.injEq] at hk
      obtain ⟨rfl, rfl⟩ := hk
      simp only at h
      rcases body_repair h with h1 | ⟨a1, k1, b1, ty1, df1, r1, h1, h2, h3, h4⟩
      · refine ⟨[], _, ⟨n, at', ns, p, ch, ep⟩, ty, df, _, none, .here rest, rfl, h, h1, rfl, rfl, fun y hy => ⟨rfl, ?_, ?_⟩⟩
        · simp only [hy.1, hy.2]
        · simp [own, ownAt, Elem.body, hy.1, hy.2]
      · obtain ⟨path, c, x, ty', df', K, r, g1, g2, g3, g4, g5, g6, g7⟩ := kid_repair env ch a1 k1 b1 h1 ty1 df1 h2
        subst h3
        refine ⟨_, _, x, ty', df', _, ((r.map early).or r1).map fun d => (⟨n, p⟩ :: d.rel, d.kind), .inside n at' ns p ep rest g1, by rw [g2], g3, g4,
          by simp only [early, g5, List.cons_append], g6, fun y hy => ⟨rfl, rfl, ?_⟩⟩
        obtain ⟨e1, e2, e3⟩ := g7 y hy
        have ht : (c y).text = ch.text := by rw [← g2, text_within g1 y x]
        simp only [own, e1, ht, h4 (K y) e2]
        simp only [own] at e3
        rw [e3]
        simp only [ownAt]
        cases bodyErr env (y.body env) ty' <;> simp [early]
    | cons k0 a =>
      simp only [List.cons_append, List.cons.injEq] at hk
      obtain ⟨rfl, hk⟩ := hk
      obtain ⟨path, c, x, ty', df', K, r, g1, g2, g3, g4, g5, g6, g7⟩ := kid_repair env rest a k b hk ty df h
      exact ⟨path, _, x, ty', df', K, r, .elem n at' ns p ch ep g1, by rw [g2], g3, g4, g5, g6, fun y hy =>
        ⟨by rw [kids, (g7 y hy).1]; rfl, (g7 y hy).2⟩⟩
  | .chars s cd p rest, a, k, b, hk, ty, df, h => by
    rw [kids] at hk
    obtain ⟨path, c, x, ty', df', K, r, g1, g2, g3, g4, g5, g6, g7⟩ := kid_repair env rest a k b hk ty df h
    exact ⟨path, _, x, ty', df', K, r, .chars s cd p g1, by rw [g2], g3, g4, g5, g6, fun y hy => ⟨by rw [kids, (g7 y hy).1], (g7 y hy).2⟩⟩
  | .misc m p rest, a, k, b, hk, ty, df, h => by
    rw [kids] at hk
    obtain ⟨path, c, x, ty', df', K, r, g1, g2, g3, g4, g5, g6, g7⟩ := kid_repair env rest a k b hk ty df h
    exact ⟨path, _, x, ty', df', K, r, .misc m p g1, by rw [g2], g3, g4, g5, g6, fun y hy => ⟨by rw [kids, (g7 y hy).1], (g7 y hy).2⟩⟩

end SX.Repair
