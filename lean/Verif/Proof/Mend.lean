import Verif.Proof.PromptKids

namespace SX.Mend
open Spec LocalErr Reproduce Repair Onward Prompt

/-- `kid_onward` and `kid_upto`, of the same element. -/
theorem kid_both (env : Env) : (f : Forest) → ∀ a k b, kids env f = a ++ k :: b → ∀ ty df, k.err ty = some df →
    ∃ (path : List StackElem) (c : Elem → Forest) (x : Elem) (ty' : Ty) (df' : Defect) (c2 : Elem → Elem → Forest) (pre post ends : List (XEvent × Pos)) (f2 : Forest) (k2 : Kid),
      Within path c ∧ c x = f ∧ bodyErr env (x.body env) ty' = some df' ∧ Near df' ∧ k.node :: df.rel = path ++ ⟨x.name, x.pos⟩ :: df'.rel ∧ df.kind = df'.kind ∧
      (∀ y, (c y).events = pre ++ elemEvents y ++ post) ∧
      ((∀ y z, (c2 y z).events = pre ++ elemEvents y ++ elemEvents z ++ post) ∧
      ∀ y z : Elem, y.At ⟨x.name, x.pos⟩ → z.name = x.name → bodyErr env (y.body env) ty' = none → bodyErr env (z.body env) ty' ≠ none → Second env (c2 y z) a k ty ⟨z.name, z.pos⟩) ∧
      (∀ l, pre.foldl opened l = l ++ path) ∧
      f2.events = pre ++ elemEvents x ++ ends ∧ (∀ e ∈ ends, ∃ n p, e = (.endElement n, p)) ∧ kids env f2 = a ++ [k2] ∧ k2.node = k.node ∧ k2.err ty = some df
  | .nil, a, k, b, hk, _, _, _ => by simp [kids] at hk
  | .elem n at' ns p ch ep rest, a, k, b, hk, ty, df, h => by
    rw [kids] at hk
    cases a with
    | nil =>
      simp only [List.nil_append, List.cons.injEq] at hk
      obtain ⟨rfl, rfl⟩ := hk
      simp only at h
      rcases body_goes h with h1 | ⟨a1, k1, b1, ty1, df1, h1, h2, h3, h4⟩
      · refine ⟨[], _, ⟨n, at', ns, p, ch, ep⟩, ty, df, fun y z => .elem y.name y.attrs y.ns y.pos y.children y.endPos (.elem z.name z.attrs z.ns z.pos z.children z.endPos rest), [], rest.events, [],
          .elem n at' ns p ch ep .nil, ⟨⟨n, p⟩, _, _, bodyErr env ⟨at', kids env ch, ch.text⟩⟩, .here rest, rfl, h, h1, rfl, rfl,
          fun y => by simp [elemEvents, Forest.events], ⟨fun y z => by simp [elemEvents, Forest.events], fun y z hy hz hy' hz' => .inl ?_⟩,
          fun l => by simp, by simp [elemEvents, Forest.events], by simp, by rw [kids, kids]; rfl, rfl, h⟩
        refine ⟨_, _, _, by rw [kids, kids]; rfl, ?_, ?_, rfl, ?_, ?_⟩
        · simp only [hy.1, hy.2]
        · simp only [own]
          rw [show bodyErr env ⟨y.attrs, kids env y.children, y.children.text⟩ ty = none from hy']
          rfl
        · simp only [Kid.name, hz]
        · simp only [own]
          cases hb : bodyErr env ⟨z.attrs, kids env z.children, z.children.text⟩ ty with
          | none => exact absurd hb hz'
          | some d => simp
      · obtain ⟨path, c, x, ty', df', c2, pre, post, ends, f2, k2, g1, g2, g3, g4, g5, g6, g7, ⟨i1, i2⟩, g8, g9, g10, g11, g12, g13⟩ := kid_both env ch a1 k1 b1 h1 ty1 df1 h2
        subst h3
        refine ⟨_, _, x, ty', df', fun y z => .elem n at' ns p (c2 y z) ep rest, (.startElement n at' ns, p) :: pre, post ++ (.endElement n, ep) :: rest.events, ends ++ [(.endElement n, ep)],
          .elem n at' ns p f2 ep .nil, ⟨⟨n, p⟩, _, _, bodyErr env ⟨at', kids env f2, f2.text⟩⟩, .inside n at' ns p ep rest g1, by rw [g2], g3, g4, by simp only [early, g5, List.cons_append], g6,
          fun y => by simp [Forest.events, g7], ⟨fun y z => by simp [Forest.events, i1], fun y z hy hz hy' hz' => .inr ?_⟩, fun l => by simp [opened, g8], by simp [Forest.events, g9], ?_,
          by rw [kids, kids]; rfl, rfl, ?_⟩
        · obtain ⟨df2, e1, e2⟩ := (i2 y z hy hz hy' hz').body h4 (c2 y z).text
          refine ⟨⟨⟨n, p⟩, _, _, bodyErr env ⟨at', kids env (c2 y z), (c2 y z).text⟩⟩, _, (⟨n, p⟩ :: df2.rel, df2.kind), by rw [kids]; rfl, rfl, by simp only [own, e1]; rfl, List.mem_cons_of_mem _ e2⟩
        · intro e he
          rcases List.mem_append.mp he with he | he
          · exact g10 e he
          · exact ⟨_, _, List.mem_singleton.mp he⟩
        · show bodyErr env ⟨at', kids env f2, f2.text⟩ ty = _
          rw [g11]
          exact h4.wrong k2 [] _ _ g12 (by rw [own, g13, ← g12]; rfl)
    | cons k0 a =>
      simp only [List.cons_append, List.cons.injEq] at hk
      obtain ⟨rfl, hk⟩ := hk
      obtain ⟨path, c, x, ty', df', c2, pre, post, ends, f2, k2, g1, g2, g3, g4, g5, g6, g7, ⟨i1, i2⟩, g8, g9, g10, g11, g12, g13⟩ := kid_both env rest a k b hk ty df h
      refine ⟨path, _, x, ty', df', fun y z => .elem n at' ns p ch ep (c2 y z), (.startElement n at' ns, p) :: (ch.events ++ (.endElement n, ep) :: pre), post, ends, .elem n at' ns p ch ep f2, k2,
        .elem n at' ns p ch ep g1, by rw [g2], g3, g4, g5, g6, fun y => by simp [Forest.events, g7], ⟨fun y z => by simp [Forest.events, i1], fun y z hy hz hy' hz' => ?_⟩,
        fun l => by simp [opened, opened_forest, g8], by simp [Forest.events, g9], g10, by rw [kids, g11]; rfl, g12, g13⟩
      rcases i2 y z hy hz hy' hz' with ⟨q0, q1, b', e1, e2⟩ | ⟨q1, b', w, e1, e2⟩
      · exact .inl ⟨q0, q1, b', by rw [kids, e1]; rfl, e2⟩
      · exact .inr ⟨q1, b', w, by rw [kids, e1]; rfl, e2⟩
  | .chars s cd p rest, a, k, b, hk, ty, df, h => by
    rw [kids] at hk
    obtain ⟨path, c, x, ty', df', c2, pre, post, ends, f2, k2, g1, g2, g3, g4, g5, g6, g7, ⟨i1, i2⟩, g8, g9, g10, g11, g12, g13⟩ := kid_both env rest a k b hk ty df h
    exact ⟨path, _, x, ty', df', fun y z => .chars s cd p (c2 y z), (if cd then .cdata s else .characters s, p) :: pre, post, ends, .chars s cd p f2, k2, .chars s cd p g1, by rw [g2], g3, g4, g5, g6,
      fun y => by simp [Forest.events, g7], ⟨fun y z => by simp [Forest.events, i1], fun y z hy hz hy' hz' => by unfold Second; rw [kids]; exact i2 y z hy hz hy' hz'⟩,
      fun l => by cases cd <;> simp [opened, g8], by simp [Forest.events, g9], g10, by rw [kids, g11], g12, g13⟩
  | .misc m p rest, a, k, b, hk, ty, df, h => by
    rw [kids] at hk
    obtain ⟨path, c, x, ty', df', c2, pre, post, ends, f2, k2, g1, g2, g3, g4, g5, g6, g7, ⟨i1, i2⟩, g8, g9, g10, g11, g12, g13⟩ := kid_both env rest a k b hk ty df h
    exact ⟨path, _, x, ty', df', fun y z => .misc m p (c2 y z), (.misc m, p) :: pre, post, ends, .misc m p f2, k2, .misc m p g1, by rw [g2], g3, g4, g5, g6,
      fun y => by simp [Forest.events, g7], ⟨fun y z => by simp [Forest.events, i1], fun y z hy hz hy' hz' => by unfold Second; rw [kids]; exact i2 y z hy hz hy' hz'⟩,
      fun l => by simp [opened, g8], by simp [Forest.events, g9], g10, by rw [kids, g11], g12, g13⟩

end SX.Mend
