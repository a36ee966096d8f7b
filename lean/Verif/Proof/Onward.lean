import Verif.Proof.Repair
import Verif.Spec.Onward

namespace SX.Onward
open SX.Spec SX.LocalErr SX.Reproduce SX.Repair

/-- As `Blames`, for a scan that calls `F` for a child and `G k0` for a child after the child `k0`: a second child of the name that is wrong in itself is complained of. -/
def Steps (nd : StackElem) (F : Kid → Option (List StackElem × ErrKind)) (G : Kid → Kid → Option (List StackElem × ErrKind)) : Prop :=
  (∀ k x, k.node = nd → F k = some x → OddAt nd x) ∨
    ∃ ty, (∀ k, k.node = nd → F k = own k ty) ∧ ∀ k0 k, k0.node = nd → k.name = nd.name.expanded → k.err ty ≠ none → ∃ rel kind, G k0 k = some (k.node :: rel, kind)

theorem Steps.congr {nd : StackElem} {F F' : Kid → Option (List StackElem × ErrKind)} {G G' : Kid → Kid → Option (List StackElem × ErrKind)} (h : Steps nd F G)
    (e : ∀ k, k.node = nd → F' k = F k) (e' : ∀ k0 k, k0.node = nd → k.name = nd.name.expanded → G' k0 k = G k0 k) : Steps nd F' G' := by
  rcases h with h | ⟨ty, h, h'⟩
  · exact .inl fun k x hk hx => h k x hk ((e k hk).symm.trans hx)
  · exact .inr ⟨ty, fun k hk => (e k hk).trans (h k hk), fun k0 k h0 hk hne => by rw [e' k0 k h0 hk]; exact h' k0 k h0 hk hne⟩

theorem slot_steps (nd : StackElem) (s : Slot) (seen : List Kid) : Steps nd (slotErr s seen) fun k0 k => slotErr s (seen ++ [k0]) k := by
  by_cases h : s.card ≠ .many ∧ seen ≠ []
  · refine .inl fun k x hk hx => ?_
    rw [slotErr, if_pos h, Kid.name, hk] at hx
    cases hx
    exact ⟨rfl, .inl rfl⟩
  · refine .inr ⟨s.ty, fun k _ => by rw [slotErr, if_neg h]; rfl, fun k0 k _ _ hne => ?_⟩
    by_cases hc : s.card ≠ .many
    · exact ⟨[], _, by simp only [slotErr]; rw [if_pos ⟨hc, by simp⟩]⟩
    · cases he : k.err s.ty with
      | none => exact absurd he hne
      | some df => exact ⟨df.rel, df.kind, by simp only [slotErr]; rw [if_neg (fun h => hc h.1), he]; rfl⟩

theorem variant_steps (nd : StackElem) (d : EnumDef) (j : Nat) (seen : List Kid) : Steps nd (variantErr d j seen) fun k0 k => variantErr d j (seen ++ [k0]) k := by
  unfold variantErr
  cases d.variants[j]? with
  | none => exact .inl fun _ _ _ hx => by cases hx
  | some v =>
    cases hs : v.slot with
    | none => exact .inl fun _ _ _ hx => by simp only [hs] at hx; cases hx
    | some s =>
      simp only [hs]
      exact slot_steps nd s seen

theorem choices_snoc (d : EnumDef) (seen : List Kid) (k0 : Kid) : choices d (seen ++ [k0]) = choices d seen ++ ((variantOf d k0.name).map fun i => (i, k0)).toList := by
  unfold choices
  rw [List.filterMap_append]
  cases h : variantOf d k0.name <;> simp [List.filterMap, h]

theorem enum_steps (nd : StackElem) (d : EnumDef) (seen : List Kid) : Steps nd (enumErr d seen) fun k0 k => enumErr d (seen ++ [k0]) k := by
  have key : ∀ k : Kid, k.node = nd → k.name = nd.name.expanded := fun k hk => by rw [Kid.name, hk]
  cases hv : variantOf d nd.name.expanded with
  | none => exact .inl fun k x hk hx => by simp only [enumErr, key k hk, hv] at hx; cases hx
  | some j =>
    have hs : ∀ k0 : Kid, k0.node = nd → choices d (seen ++ [k0]) = choices d seen ++ [(j, k0)] := fun k0 hk => by rw [choices_snoc, key k0 hk, hv]; rfl
    cases hc : choices d seen with
    | nil =>
      refine (variant_steps nd d j []).congr (fun k hk => by simp only [enumErr, key k hk, hv, hc]) fun k0 k h0 hk => ?_
      simp [enumErr, hk, hv, hs k0 h0, hc]
    | cons c rest =>
      obtain ⟨i, k1⟩ := c
      by_cases hj : j = i
      · subst hj
        refine (variant_steps nd d j (k1 :: rest.map Prod.snd)).congr (fun k hk => by simp [enumErr, key k hk, hv, hc]) fun k0 k h0 hk => ?_
        simp [enumErr, hk, hv, hs k0 h0, hc]
      · cases hi : d.variants[i]? with
        | none => exact .inl fun k x hk hx => by simp only [enumErr, key k hk, hv, hc, if_neg hj, hi] at hx; cases hx
        | some v =>
          refine .inl fun k x hk hx => ?_
          simp only [enumErr, key k hk, hv, hc, if_neg hj, hi, hk, Option.some.injEq] at hx
          subst hx
          exact ⟨rfl, .inr (.inl ⟨_, rfl⟩)⟩

theorem flat_steps (nd : StackElem) (env : Env) (es : List Nat) (seen : List Kid) : Steps nd (flatErr env es seen) fun k0 k => flatErr env es (seen ++ [k0]) k := by
  induction es with
  | nil => exact .inl fun _ _ _ hx => by cases hx
  | cons e es ih =>
    have key : ∀ k : Kid, k.node = nd → k.name = nd.name.expanded := fun k hk => by rw [Kid.name, hk]
    by_cases h : choices (env.enm e) seen = [] ∧ variantOf (env.enm e) nd.name.expanded = none
    · refine ih.congr (fun k hk => by rw [flatErr, key k hk, if_pos h]) fun k0 k h0 hk => ?_
      simp only [flatErr]
      rw [if_pos ⟨by rw [choices_snoc, key k0 h0, h.1, h.2]; rfl, by rw [hk, h.2]⟩]
    · refine (enum_steps nd (env.enm e) seen).congr (fun k hk => by rw [flatErr, key k hk, if_neg h]) fun k0 k h0 hk => ?_
      simp only [flatErr]
      rw [if_neg]
      rintro ⟨h1, h2⟩
      rw [choices_snoc] at h1
      exact h ⟨(List.append_eq_nil_iff.mp h1).1, by rw [← hk, h2]⟩

theorem struct_steps (nd : StackElem) (env : Env) (fields : List Field) (seen : List Kid) : Steps nd (structErr env fields seen) fun k0 k => structErr env fields (seen ++ [k0]) k := by
  have key : ∀ k : Kid, k.node = nd → k.name = nd.name.expanded := fun k hk => by rw [Kid.name, hk]
  cases h : elemSlot fields nd.name.expanded with
  | none =>
    refine (flat_steps nd env (flatTypes fields) (strangers fields seen)).congr (fun k hk => by rw [structErr, key k hk, h]) fun k0 k h0 hk => ?_
    simp only [structErr, hk, h]
    have hd : declaredElem fields nd.name.expanded = false := by
      cases hd : declaredElem fields nd.name.expanded with
      | false => rfl
      | true => obtain ⟨s, hs⟩ := declaredElem_elemSlot hd; rw [h] at hs; cases hs
    rw [show strangers fields (seen ++ [k0]) = strangers fields seen ++ [k0] by simp [strangers, key k0 h0, hd]]
  | some s =>
    refine (slot_steps nd s (named nd.name.expanded seen)).congr (fun k hk => by rw [structErr, key k hk, h]) fun k0 k h0 hk => ?_
    simp only [structErr, hk, h]
    rw [show named nd.name.expanded (seen ++ [k0]) = named nd.name.expanded seen ++ [k0] by simp [named, key k0 h0]]

/-- Content with the children `a`, then one at `nd`, is complained of in the child `k'` there or, if that is right, in a wrong one of that name after it. -/
structure Goes (env : Env) (attrs : List XAttr) (a : List Kid) (nd : StackElem) (ty' ty : Ty) : Prop where
  wrong : ∀ (k' : Kid) (b : List Kid) (t : String) x, k'.node = nd → own k' ty' = some x → bodyErr env ⟨attrs, a ++ k' :: b, t⟩ ty = some (early x)
  again : ∀ (k0 k' : Kid) (b : List Kid) (t : String), k0.node = nd → own k0 ty' = none → k'.name = nd.name.expanded → own k' ty' ≠ none →
    ∃ df, bodyErr env ⟨attrs, a ++ k0 :: k' :: b, t⟩ ty = some df ∧ k'.node ∈ df.rel

theorem scan_goes {f : List Kid → Kid → Option (List StackElem × ErrKind)} (hb : ∀ nd seen, Steps nd (f seen) fun k0 k => f (seen ++ [k0]) k)
    {ks : List Kid} {x : List StackElem × ErrKind} (hx : scan f [] ks = some x) :
    (∃ nd, OddAt nd x) ∨ ∃ a k b ty df, ks = a ++ k :: b ∧ k.err ty = some df ∧ x = (k.node :: df.rel, df.kind) ∧
      (∀ k' b' y, k'.node = k.node → own k' ty = some y → scan f [] (a ++ k' :: b') = some y) ∧
      ∀ k0 k' b', k0.node = k.node → own k0 ty = none → k'.name = k.node.name.expanded → own k' ty ≠ none → ∃ rel kind, scan f [] (a ++ k0 :: k' :: b') = some (k'.node :: rel, kind) := by
  obtain ⟨a, k, b, h1, h2, h3⟩ := (scan_spec f [] ks x).mp hx
  rw [List.nil_append] at h2
  rcases hb k.node a with h | ⟨ty, h, h'⟩
  · exact .inl ⟨_, h k x rfl h2⟩
  · rw [h k rfl] at h2
    obtain ⟨df, h4, h5⟩ := Option.map_eq_some_iff.mp h2
    have ha : scan f [] a = none := by
      cases ha : scan f [] a with
      | none => rfl
      | some y =>
        obtain ⟨p, z, q, e1, e2, -⟩ := (scan_spec f [] a y).mp ha
        rw [List.nil_append] at e2
        have := h3 p z q e1
        rw [List.nil_append, e2] at this
        cases this
    refine .inr ⟨a, k, b, ty, df, h1, h4, h5.symm, fun k' b' y hk' hy => ?_, fun k0 k' b' h0 h0' hk' hne => ?_⟩
    · rw [scan_split, ha, Option.none_or, List.nil_append, scan, h k' hk', hy]
    · obtain ⟨rel, kind, hr⟩ := h' k0 k' h0 hk' (fun hn => hne (by rw [own, hn]; rfl))
      exact ⟨rel, kind, by rw [scan_split, ha, Option.none_or, List.nil_append, scan, h k0 h0, h0']; simp only [scan]; rw [show f (a ++ [k0]) k' = _ from hr]⟩

theorem body_goes {env : Env} {attrs : List XAttr} {ks : List Kid} {t : String} {ty : Ty} {df : Defect} (h : bodyErr env ⟨attrs, ks, t⟩ ty = some df) :
    Near df ∨ ∃ a k b ty' df', ks = a ++ k :: b ∧ k.err ty' = some df' ∧ df = early (k.node :: df'.rel, df'.kind) ∧ Goes env attrs a k.node ty' ty := by
  cases ty with
  | text tt =>
    simp only [bodyErr] at h
    split at h
    · split at h
      · cases h; exact .inl (.inl rfl)
      · cases h
    · cases h
      exact .inl (.inr ⟨_, rfl, .inr (.inr rfl)⟩)
  | strct i =>
    simp only [bodyErr] at h
    cases ha : scan (attrErr (env.strct i).fields) [] attrs with
    | some kind => rw [ha] at h; cases h; exact .inl (.inl rfl)
    | none =>
      simp only [ha] at h
      split at h
      · next rel kind hx =>
        cases h
        rcases scan_goes (fun nd seen => struct_steps nd env _ seen) hx with ⟨nd, ho⟩ | ⟨a, k, b, ty', df', h1, h2, h3, h4, h5⟩
        · exact .inl (near_odd ho)
        · refine .inr ⟨a, k, b, ty', df', h1, h2, by rw [← h3]; rfl, ⟨fun k' b' t' x hk' hx' => ?_, fun k0 k' b' t' h0 h0' hk' hne => ?_⟩⟩
          · simp only [bodyErr, ha, h4 k' b' x hk' hx']
            rfl
          · obtain ⟨rel, kind, hr⟩ := h5 k0 k' b' h0 h0' hk' hne
            exact ⟨⟨k'.node :: rel, kind, false⟩, by simp only [bodyErr, ha, hr], List.mem_cons_self⟩
      · obtain ⟨kind, -, rfl⟩ := Option.map_eq_some_iff.mp h
        exact .inl (.inl rfl)
  | enm i =>
    simp only [bodyErr] at h
    split at h
    · next rel kind hx =>
      cases h
      rcases scan_goes (fun nd seen => enum_steps nd _ seen) hx with ⟨nd, ho⟩ | ⟨a, k, b, ty', df', h1, h2, h3, h4, h5⟩
      · exact .inl (near_odd ho)
      · refine .inr ⟨a, k, b, ty', df', h1, h2, by rw [← h3]; rfl, ⟨fun k' b' t' x hk' hx' => ?_, fun k0 k' b' t' h0 h0' hk' hne => ?_⟩⟩
        · simp only [bodyErr, h4 k' b' x hk' hx']
          rfl
        · obtain ⟨rel, kind, hr⟩ := h5 k0 k' b' h0 h0' hk' hne
          exact ⟨⟨k'.node :: rel, kind, false⟩, by simp only [bodyErr, hr], List.mem_cons_self⟩
    · split at h
      · cases h; exact .inl (.inl rfl)
      · cases h

/-- What is wrong with content `f` in which an element that is wrong, at `z`, comes after one that is right: the second one. -/
def Second (env : Env) (f : Forest) (a : List Kid) (k : Kid) (ty : Ty) (z : StackElem) : Prop :=
  (∃ k0 k' b, kids env f = a ++ k0 :: k' :: b ∧ k0.node = k.node ∧ own k0 ty = none ∧ k'.node = z ∧ k'.name = k.node.name.expanded ∧ own k' ty ≠ none) ∨
  ∃ k' b x, kids env f = a ++ k' :: b ∧ k'.node = k.node ∧ own k' ty = some x ∧ z ∈ x.1

theorem Second.body {env : Env} {f : Forest} {attrs : List XAttr} {a : List Kid} {k : Kid} {ty' ty : Ty} {z : StackElem} (h : Second env f a k ty' z) (g : Goes env attrs a k.node ty' ty)
    (t : String) : ∃ df, bodyErr env ⟨attrs, kids env f, t⟩ ty = some df ∧ z ∈ df.rel := by
  rcases h with ⟨k0, k', b, h1, h2, h3, rfl, h5, h6⟩ | ⟨k', b, x, h1, h2, h3, h4⟩
  · rw [h1]
    exact g.again k0 k' b t h2 h3 h5 h6
  · rw [h1]
    exact ⟨_, g.wrong k' b t x h2 h3, h4⟩

theorem kid_onward (env : Env) : (f : Forest) → ∀ a k b, kids env f = a ++ k :: b → ∀ ty df, k.err ty = some df →
    ∃ (path : List StackElem) (c : Elem → Forest) (x : Elem) (ty' : Ty) (df' : Defect) (c2 : Elem → Elem → Forest) (pre post : List (XEvent × Pos)),
      Within path c ∧ c x = f ∧ bodyErr env (x.body env) ty' = some df' ∧ Near df' ∧ k.node :: df.rel = path ++ ⟨x.name, x.pos⟩ :: df'.rel ∧ df.kind = df'.kind ∧
      (∀ y, (c y).events = pre ++ elemEvents y ++ post) ∧ (∀ y z, (c2 y z).events = pre ++ elemEvents y ++ elemEvents z ++ post) ∧
      ∀ y z : Elem, y.At ⟨x.name, x.pos⟩ → z.name = x.name → bodyErr env (y.body env) ty' = none → bodyErr env (z.body env) ty' ≠ none → Second env (c2 y z) a k ty ⟨z.name, z.pos⟩
  | .nil, a, k, b, hk, _, _, _ => by simp [kids] at hk
  | .elem n at' ns p ch ep rest, a, k, b, hk, ty, df, h => by
    rw [kids] at hk
    cases a with
    | nil =>
      simp only [List.nil_append, List.cons.injEq] at hk
      obtain ⟨rfl, rfl⟩ := hk
      simp only at h
      rcases body_goes h with h1 | ⟨a1, k1, b1, ty1, df1, h1, h2, h3, h4⟩
      · refine ⟨[], _, ⟨n, at', ns, p, ch, ep⟩, ty, df, fun y z => .elem y.name y.attrs y.ns y.pos y.children y.endPos (.elem z.name z.attrs z.ns z.pos z.children z.endPos rest), [], rest.events,
          .here rest, rfl, h, h1, rfl, rfl, fun y => by simp [elemEvents, Forest.events], fun y z => by simp [elemEvents, Forest.events], fun y z hy hz hy' hz' => .inl ?_⟩
        refine ⟨_, _, _, by rw [kids, kids]; rfl, ?_, ?_, rfl, ?_, ?_⟩
        · simp only [hy.1, hy.2]
        · simp only [own]
          rw [show bodyErr env ⟨y.attrs, kids env y.children, y.children.text⟩ ty = none from hy']
          rfl
        · simp only [Kid.name, hz]
        · simp only [own]
          cases hb : bodyErr env ⟨z.attrs, kids env z.children, z.children.text⟩ ty with
          | none => exact absurd hb hz'
          | some d => simp
      · obtain ⟨path, c, x, ty', df', c2, pre, post, g1, g2, g3, g4, g5, g6, g7, g8, g9⟩ := kid_onward env ch a1 k1 b1 h1 ty1 df1 h2
        subst h3
        refine ⟨_, _, x, ty', df', fun y z => .elem n at' ns p (c2 y z) ep rest, (.startElement n at' ns, p) :: pre, post ++ (.endElement n, ep) :: rest.events,
          .inside n at' ns p ep rest g1, by rw [g2], g3, g4, by simp only [early, g5, List.cons_append], g6, fun y => by simp [Forest.events, g7], fun y z => by simp [Forest.events, g8],
          fun y z hy hz hy' hz' => .inr ?_⟩
        obtain ⟨df2, e1, e2⟩ := (g9 y z hy hz hy' hz').body h4 (c2 y z).text
        refine ⟨⟨⟨n, p⟩, _, _, bodyErr env ⟨at', kids env (c2 y z), (c2 y z).text⟩⟩, _, (⟨n, p⟩ :: df2.rel, df2.kind), by rw [kids]; rfl, rfl, by simp only [own, e1]; rfl, List.mem_cons_of_mem _ e2⟩
    | cons k0 a =>
      simp only [List.cons_append, List.cons.injEq] at hk
      obtain ⟨rfl, hk⟩ := hk
      obtain ⟨path, c, x, ty', df', c2, pre, post, g1, g2, g3, g4, g5, g6, g7, g8, g9⟩ := kid_onward env rest a k b hk ty df h
      refine ⟨path, _, x, ty', df', fun y z => .elem n at' ns p ch ep (c2 y z), (.startElement n at' ns, p) :: (ch.events ++ (.endElement n, ep) :: pre), post, .elem n at' ns p ch ep g1,
        by rw [g2], g3, g4, g5, g6, fun y => by simp [Forest.events, g7], fun y z => by simp [Forest.events, g8], fun y z hy hz hy' hz' => ?_⟩
      rcases g9 y z hy hz hy' hz' with ⟨q0, q1, b', e1, e2⟩ | ⟨q1, b', w, e1, e2⟩
      · exact .inl ⟨q0, q1, b', by rw [kids, e1]; rfl, e2⟩
      · exact .inr ⟨q1, b', w, by rw [kids, e1]; rfl, e2⟩
  | .chars s cd p rest, a, k, b, hk, ty, df, h => by
    rw [kids] at hk
    obtain ⟨path, c, x, ty', df', c2, pre, post, g1, g2, g3, g4, g5, g6, g7, g8, g9⟩ := kid_onward env rest a k b hk ty df h
    exact ⟨path, _, x, ty', df', fun y z => .chars s cd p (c2 y z), (if cd then .cdata s else .characters s, p) :: pre, post, .chars s cd p g1, by rw [g2], g3, g4, g5, g6,
      fun y => by simp [Forest.events, g7], fun y z => by simp [Forest.events, g8], fun y z hy hz hy' hz' => by unfold Second; rw [kids]; exact g9 y z hy hz hy' hz'⟩
  | .misc m p rest, a, k, b, hk, ty, df, h => by
    rw [kids] at hk
    obtain ⟨path, c, x, ty', df', c2, pre, post, g1, g2, g3, g4, g5, g6, g7, g8, g9⟩ := kid_onward env rest a k b hk ty df h
    exact ⟨path, _, x, ty', df', fun y z => .misc m p (c2 y z), (.misc m, p) :: pre, post, .misc m p g1, by rw [g2], g3, g4, g5, g6,
      fun y => by simp [Forest.events, g7], fun y z => by simp [Forest.events, g8], fun y z hy hz hy' hz' => by unfold Second; rw [kids]; exact g9 y z hy hz hy' hz'⟩

end SX.Onward
