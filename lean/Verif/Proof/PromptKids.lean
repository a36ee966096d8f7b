import Verif.Proof.Prompt

namespace SX.Prompt
open Spec LocalErr Reproduce Repair Onward

theorem opened_forest (f : Forest) : ∀ l : List StackElem, f.events.foldl opened l = l := by
  induction f with
  | nil => intro l; rfl
  | misc m p rest ih => intro l; exact ih l
  | chars s c p rest ih => intro l; cases c <;> exact ih l
  | elem n as ns p ch ep rest ih ihr =>
    intro l
    simp only [Forest.events, List.cons_append, List.foldl_cons, List.foldl_append, opened, ih, List.dropLast_concat, ihr]

theorem opened_elem (x : Elem) (l : List StackElem) : (elemEvents x).foldl opened l = l := by
  simp only [elemEvents, List.foldl_cons, List.foldl_append, opened, opened_forest, List.foldl_nil, List.dropLast_concat]

/-- End tags close elements. -/
theorem opened_ends : ∀ (es : List (XEvent × Pos)), (∀ e ∈ es, ∃ n p, e = (.endElement n, p)) → ∀ l : List StackElem, (es.foldl opened l).length ≤ l.length := by
  intro es
  induction es with
  | nil => intro _ l; exact Nat.le_refl _
  | cons e es ih =>
    intro h l
    obtain ⟨n, p, rfl⟩ := h e List.mem_cons_self
    refine Nat.le_trans (ih (fun e he => h e (List.mem_cons_of_mem _ he)) _) ?_
    simp [opened]

/-- The element that what is wrong with a child is about; and the content up to its end, closed. -/
theorem kid_upto (env : Env) : (f : Forest) → ∀ a k b, kids env f = a ++ k :: b → ∀ ty df, k.err ty = some df →
    ∃ (path : List StackElem) (c : Elem → Forest) (x : Elem) (ty' : Ty) (df' : Defect) (pre post ends : List (XEvent × Pos)) (f2 : Forest) (k2 : Kid),
      Within path c ∧ c x = f ∧ bodyErr env (x.body env) ty' = some df' ∧ Near df' ∧ k.node :: df.rel = path ++ ⟨x.name, x.pos⟩ :: df'.rel ∧ df.kind = df'.kind ∧
      (∀ y, (c y).events = pre ++ elemEvents y ++ post) ∧ (∀ l, pre.foldl opened l = l ++ path) ∧
      f2.events = pre ++ elemEvents x ++ ends ∧ (∀ e ∈ ends, ∃ n p, e = (.endElement n, p)) ∧ kids env f2 = a ++ [k2] ∧ k2.node = k.node ∧ k2.err ty = some df
  | .nil, a, k, b, hk, _, _, _ => by simp [kids] at hk
  | .elem n at' ns p ch ep rest, a, k, b, hk, ty, df, h => by
    rw [kids] at hk
    cases a with
    | nil =>
      simp only [List.nil_append, List.cons.injEq] at hk
      obtain ⟨rfl, rfl⟩ := hk
      simp only at h
      rcases body_goes h with h1 | ⟨a1, k1, b1, ty1, df1, h1, h2, h3, h4⟩
      · exact ⟨[], _, ⟨n, at', ns, p, ch, ep⟩, ty, df, [], rest.events, [], .elem n at' ns p ch ep .nil, ⟨⟨n, p⟩, _, _, bodyErr env ⟨at', kids env ch, ch.text⟩⟩, .here rest, rfl, h, h1, rfl, rfl,
          fun y => by simp [elemEvents, Forest.events], fun l => by simp, by simp [elemEvents, Forest.events], by simp, by rw [kids, kids]; rfl, rfl, h⟩
      · obtain ⟨path, c, x, ty', df', pre, post, ends, f2, k2, g1, g2, g3, g4, g5, g6, g7, g8, g9, g10, g11, g12, g13⟩ := kid_upto env ch a1 k1 b1 h1 ty1 df1 h2
        subst h3
        refine ⟨_, _, x, ty', df', (.startElement n at' ns, p) :: pre, post ++ (.endElement n, ep) :: rest.events, ends ++ [(.endElement n, ep)], .elem n at' ns p f2 ep .nil,
          ⟨⟨n, p⟩, _, _, bodyErr env ⟨at', kids env f2, f2.text⟩⟩, .inside n at' ns p ep rest g1, by rw [g2], g3, g4, by simp only [early, g5, List.cons_append], g6,
          fun y => by simp [Forest.events, g7], fun l => by simp [opened, g8], by simp [Forest.events, g9], ?_, by rw [kids, kids]; rfl, rfl, ?_⟩
        · intro e he
          rcases List.mem_append.mp he with he | he
          · exact g10 e he
          · exact ⟨_, _, List.mem_singleton.mp he⟩
        · show bodyErr env ⟨at', kids env f2, f2.text⟩ ty = _
          rw [g11]
          exact h4.wrong k2 [] _ _ g12 (by rw [own, g13, ← g12]; rfl)
    | cons k0 a =>
      simp only [List.cons_append, List.cons.injEq] at hk
      obtain ⟨rfl, hk⟩ := hk
      obtain ⟨path, c, x, ty', df', pre, post, ends, f2, k2, g1, g2, g3, g4, g5, g6, g7, g8, g9, g10, g11, g12, g13⟩ := kid_upto env rest a k b hk ty df h
      exact ⟨path, _, x, ty', df', (.startElement n at' ns, p) :: (ch.events ++ (.endElement n, ep) :: pre), post, ends, .elem n at' ns p ch ep f2, k2, .elem n at' ns p ch ep g1,
        by rw [g2], g3, g4, g5, g6, fun y => by simp [Forest.events, g7], fun l => by simp [opened, opened_forest, g8], by simp [Forest.events, g9], g10, by rw [kids, g11]; rfl, g12, g13⟩
  | .chars s cd p rest, a, k, b, hk, ty, df, h => by
    rw [kids] at hk
    obtain ⟨path, c, x, ty', df', pre, post, ends, f2, k2, g1, g2, g3, g4, g5, g6, g7, g8, g9, g10, g11, g12, g13⟩ := kid_upto env rest a k b hk ty df h
    exact ⟨path, _, x, ty', df', (if cd then .cdata s else .characters s, p) :: pre, post, ends, .chars s cd p f2, k2, .chars s cd p g1, by rw [g2], g3, g4, g5, g6,
      fun y => by simp [Forest.events, g7], fun l => by cases cd <;> simp [opened, g8], by simp [Forest.events, g9], g10, by rw [kids, g11], g12, g13⟩
  | .misc m p rest, a, k, b, hk, ty, df, h => by
    rw [kids] at hk
    obtain ⟨path, c, x, ty', df', pre, post, ends, f2, k2, g1, g2, g3, g4, g5, g6, g7, g8, g9, g10, g11, g12, g13⟩ := kid_upto env rest a k b hk ty df h
    exact ⟨path, _, x, ty', df', (.misc m, p) :: pre, post, ends, .misc m p f2, k2, .misc m p g1, by rw [g2], g3, g4, g5, g6,
      fun y => by simp [Forest.events, g7], fun l => by simp [opened, g8], by simp [Forest.events, g9], g10, by rw [kids, g11], g12, g13⟩

/-- If the error's elements are more than are open after `P`, and only end tags come after `P`, then it was found by the end of `P`. -/
theorem found_within {i : Input} {E : Error} {cc P ends : List (XEvent × Pos)} (h : Found i E cc) (hi : i.items = P ++ ends) (he : ∀ e ∈ ends, ∃ n p, e = (.endElement n, p))
    (hl : (openedBy P).length < E.stack.length) : ∃ rest, P = cc ++ rest := by
  obtain ⟨rest, hr⟩ := h.items
  have hpre : cc <+: P ++ ends := ⟨rest, by rw [← hr, hi]⟩
  by_cases hlen : cc.length ≤ P.length
  · obtain ⟨q, hq⟩ := List.prefix_of_prefix_length_le hpre (List.prefix_append P ends) hlen
    exact ⟨q, hq.symm⟩
  · exfalso
    obtain ⟨q, rfl⟩ := List.prefix_of_prefix_length_le (List.prefix_append P ends) hpre (by omega)
    have hq : ∀ e ∈ q, ∃ n p, e = (.endElement n, p) := by
      obtain ⟨z, hz⟩ := hpre
      rw [List.append_assoc] at hz
      have := List.append_cancel_left hz
      intro e hm
      exact he e (by rw [← this]; exact List.mem_append_left _ hm)
    rcases h.stack with hs | ⟨c, n, p, hc, hs⟩
    · have := opened_ends q hq (openedBy P)
      rw [hs, show openedBy (P ++ q) = List.foldl opened (openedBy P) q from List.foldl_append] at hl
      omega
    · rcases List.eq_nil_or_concat q with rfl | ⟨q', e, rfl⟩
      · simp at hlen
      · rw [List.concat_eq_append, ← List.append_assoc] at hc
        have hc' := List.append_inj_left' hc rfl
        subst hc'
        have := opened_ends q' (fun e he' => hq e (by simp [he'])) (openedBy P)
        rw [hs, show openedBy (P ++ q') = List.foldl opened (openedBy P) q' from List.foldl_append] at hl
        omega

end SX.Prompt
