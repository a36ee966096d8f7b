import Verif.Proof.LocalErr
import Verif.Spec.Reproduce
import Verif.Props.DeriveFirst

namespace SX.Reproduce
open SX.Spec SX.LocalErr

/-- A complaint is about a child being there at all. -/
def Odd (k : Kid) (x : List StackElem × ErrKind) : Prop :=
  x.1 = [k.node] ∧ (x.2 = .deserializer (.duplicateElement k.name) ∨ (∃ n, x.2 = .deserializer (.unexpectedElement k.name n)) ∨ x.2 = .msg (.elementInString k.node.name))

/-- Or the child's own. -/
def OddOrOwn (k : Kid) (x : List StackElem × ErrKind) : Prop := Odd k x ∨ ∃ ty df, k.err ty = some df ∧ x = (k.node :: df.rel, df.kind)

theorem slot_odd {s : Slot} {seen : List Kid} {k : Kid} {x} (h : slotErr s seen k = some x) : OddOrOwn k x := by
  unfold slotErr at h
  split at h
  · cases h
    exact .inl ⟨rfl, .inl rfl⟩
  · obtain ⟨df, h1, rfl⟩ := Option.map_eq_some_iff.mp h
    exact .inr ⟨_, df, h1, rfl⟩

theorem variant_odd {d : EnumDef} {j : Nat} {seen : List Kid} {k : Kid} {x} (h : variantErr d j seen k = some x) : OddOrOwn k x := by
  unfold variantErr at h
  split at h
  · cases h
  · split at h
    · cases h
    · exact slot_odd h

theorem enum_odd {d : EnumDef} {seen : List Kid} {k : Kid} {x} (h : enumErr d seen k = some x) : OddOrOwn k x := by
  unfold enumErr at h
  split at h
  · cases h
  · exact variant_odd h
  · split at h
    · exact variant_odd h
    · split at h
      · cases h
      · cases h
        exact .inl ⟨rfl, .inr (.inl ⟨_, rfl⟩)⟩

theorem flat_odd {env : Env} {es : List Nat} {seen : List Kid} {k : Kid} {x} (h : flatErr env es seen k = some x) : OddOrOwn k x := by
  induction es with
  | nil => cases h
  | cons e es ih =>
    unfold flatErr at h
    split at h
    · exact ih h
    · exact enum_odd h

theorem struct_odd {env : Env} {fields : List Field} {seen : List Kid} {k : Kid} {x} (h : structErr env fields seen k = some x) : OddOrOwn k x := by
  unfold structErr at h
  split at h
  · exact slot_odd h
  · exact flat_odd h

/-- A defect of content is about nothing below it but a child being there at all, or it is a child's own. -/
theorem body_odd {env : Env} {b : Body} {ty : Ty} {df : Defect} (h : bodyErr env b ty = some df) :
    df.rel = [] ∨ df.late = false ∧ ∃ k ∈ b.kids, OddOrOwn k (df.rel, df.kind) := by
  have hs : ∀ (f : List Kid → Kid → Option (List StackElem × ErrKind)) x, (∀ seen k x, f seen k = some x → OddOrOwn k x) → scan f [] b.kids = some x → ∃ k ∈ b.kids, OddOrOwn k x := by
    intro f x hf hx
    obtain ⟨pre, k, post, h1, h2, -⟩ := (scan_spec f [] b.kids x).mp hx
    exact ⟨k, by simp [h1], hf _ _ _ h2⟩
  cases ty with
  | text t =>
    simp only [bodyErr] at h
    split at h
    · split at h
      · cases h; exact .inl rfl
      · cases h
    · next k ks hk =>
      cases h
      exact .inr ⟨rfl, k, by simp [hk], .inl ⟨rfl, .inr (.inr rfl)⟩⟩
  | strct i =>
    simp only [bodyErr] at h
    split at h
    · cases h; exact .inl rfl
    · split at h
      · next rel kind hx =>
        cases h
        exact .inr ⟨rfl, hs _ (rel, kind) (fun _ _ _ => struct_odd) hx⟩
      · obtain ⟨kind, -, rfl⟩ := Option.map_eq_some_iff.mp h
        exact .inl rfl
  | enm i =>
    simp only [bodyErr] at h
    split at h
    · next rel kind hx =>
      cases h
      exact .inr ⟨rfl, hs _ (rel, kind) (fun _ _ _ => enum_odd) hx⟩
    · split at h
      · cases h; exact .inl rfl
      · cases h

/-- A defect that is about nothing below the element. -/
def Near (df : Defect) : Prop :=
  df.rel = [] ∨ ∃ k : StackElem, df.rel = [k] ∧ (df.kind = .deserializer (.duplicateElement k.name.expanded) ∨ (∃ n, df.kind = .deserializer (.unexpectedElement k.name.expanded n)) ∨
    df.kind = .msg (.elementInString k.name))

theorem body_near {env : Env} {b : Body} {ty : Ty} {df : Defect} (h : bodyErr env b ty = some df) :
    Near df ∨ ∃ k ∈ b.kids, ∃ ty' df', k.err ty' = some df' ∧ df.rel = k.node :: df'.rel ∧ df.kind = df'.kind ∧ df.late = false := by
  rcases body_odd h with h | ⟨hl, k, hk, ⟨h1, h2⟩ | ⟨ty', df', h1, h2⟩⟩
  · exact .inl (.inl h)
  · exact .inl (.inr ⟨k.node, h1, h2⟩)
  · simp only [Prod.mk.injEq] at h2
    exact .inr ⟨k, hk, ty', df', h1, h2.1, h2.2, hl⟩

/-- The defect of a child is that of an element in it, or itself, that is about nothing below that. -/
theorem kid_near (env : Env) : (f : Forest) → ∀ k ∈ kids env f, ∀ ty df, k.err ty = some df →
    ∃ path c x ty' df', Within path c ∧ c x = f ∧ bodyErr env (x.body env) ty' = some df' ∧ Near df' ∧ k.node :: df.rel = path ++ ⟨x.name, x.pos⟩ :: df'.rel ∧ df.kind = df'.kind
  | .nil, k, hk, _, _, _ => by simp [kids] at hk
  | .elem n a ns p ch ep rest, k, hk, ty, df, h => by
    rw [kids] at hk
    rcases List.mem_cons.mp hk with rfl | hk
    · simp only at h
      rcases body_near h with h1 | ⟨k1, hk1, ty1, df1, h1, h2, h3, -⟩
      · exact ⟨[], _, ⟨n, a, ns, p, ch, ep⟩, ty, df, .here rest, rfl, h, h1, rfl, rfl⟩
      · obtain ⟨path, c, x, ty', df', g1, g2, g3, g4, g5, g6⟩ := kid_near env ch k1 hk1 ty1 df1 h1
        exact ⟨_, _, x, ty', df', .inside n a ns p ep rest g1, by rw [g2], g3, g4, by simp only [h2, g5, List.cons_append], h3.trans g6⟩
    · obtain ⟨path, c, x, ty', df', g1, g2, g3⟩ := kid_near env rest k hk ty df h
      exact ⟨path, _, x, ty', df', .elem n a ns p ch ep g1, by rw [g2], g3⟩
  | .chars s cd p rest, k, hk, ty, df, h => by
    rw [kids] at hk
    obtain ⟨path, c, x, ty', df', g1, g2, g3⟩ := kid_near env rest k hk ty df h
    exact ⟨path, _, x, ty', df', .chars s cd p g1, by rw [g2], g3⟩
  | .misc m p rest, k, hk, ty, df, h => by
    rw [kids] at hk
    obtain ⟨path, c, x, ty', df', g1, g2, g3⟩ := kid_near env rest k hk ty df h
    exact ⟨path, _, x, ty', df', .misc m p g1, by rw [g2], g3⟩

theorem near_about {x : Elem} {df : Defect} (h : Near df) : AboutRoot (reported x df) := by
  refine ⟨⟨x.name, x.pos⟩, ?_⟩
  rcases h with h | ⟨k, h1, h2⟩
  · exact .inl (by simp [reported, h])
  · exact .inr ⟨k, by simp [reported, h1], h2⟩

end SX.Reproduce
