import Verif.Model.Whole
import Verif.Proof.OpenDerived
import Verif.Proof.GenEnum
import Verif.Spec.Gen

/-
Two sets of visitors that do the same read the same.
-/
namespace SX.Whole
open SX.Open Spec Spec.Open SX.Gen Spec.Gen

section
variable {σ σ' τ τ' τ'' α β γ ρ ρ' : Type}

/-- Both fail, or both succeed with related results. -/
def Both (Q : α → β → Prop) : Except Fault α → Except Fault β → Prop
  | .error _, .error _ => True
  | .ok a, .ok b => Q a b
  | _, _ => False

def ActRel (R : σ → σ' → Prop) (Q : ρ → ρ' → Prop) : Action σ ρ → Action σ' ρ' → Prop
  | .done r, .done r' => Q r r'
  | .readString k, .readString k' => ∀ x, Q (k x) (k' x)
  | .readTo s k, .readTo s' k' => R s s' ∧ ∀ x x', R x x' → ∀ r, Q (k x r) (k' x' r)
  | _, _ => False

theorem ActRel.map {R : σ → σ' → Prop} {Q : ρ → ρ' → Prop} {Q' : α → β → Prop} {a : Action σ ρ} {a' : Action σ' ρ'} (h : ActRel R Q a a')
    (f : ρ → α) (f' : ρ' → β) (hf : ∀ r r', Q r r' → Q' (f r) (f' r')) : ActRel R Q' (a.map f) (a'.map f') := by
  cases a <;> cases a' <;> try exact False.elim h
  · exact hf _ _ h
  · exact fun x => hf _ _ (h x)
  · exact ⟨h.1, fun x x' hx r => hf _ _ (h.2 x x' hx r)⟩

/-- The same, with a state and an answer. -/
def Step (T : τ → τ' → Prop) (x : τ × ρ) (y : τ' × ρ) : Prop := T x.1 y.1 ∧ x.2 = y.2

/-! ### Reading -/

structure VisRel (R : σ → σ' → Prop) (V : Visitor σ) (V' : Visitor σ') : Prop where
  attr : ∀ v v', R v v' → ∀ n s, Both (Step R) (V.onAttr v n s) (V'.onAttr v' n s)
  chars : ∀ v v', R v v' → ∀ s pos, Both (Step R) (V.onChars v s pos) (V'.onChars v' s pos)
  elem : ∀ v v', R v v' → ∀ info, ActRel R (Both (Step R)) (V.onElem v info) (V'.onElem v' info)

theorem both_cases {Q : α → β → Prop} {x : Except Fault α} {y : Except Fault β} (h : Both Q x y) :
    (∃ e e', x = .error e ∧ y = .error e') ∨ ∃ a b, x = .ok a ∧ y = .ok b ∧ Q a b := by
  cases x <;> cases y <;> try exact False.elim h
  · exact .inl ⟨_, _, rfl, rfl⟩
  · exact .inr ⟨_, _, rfl, rfl, h⟩

theorem both_refl (x : Except Fault α) : Both Eq x x := by
  cases x <;> simp [Both]

theorem Both.mono {Q Q' : α → β → Prop} {x : Except Fault α} {y : Except Fault β} (h : Both Q x y) (hq : ∀ a b, Q a b → Q' a b) : Both Q' x y := by
  rcases both_cases h with ⟨e, e', rfl, rfl⟩ | ⟨a, b, rfl, rfl, h⟩
  · trivial
  · exact hq _ _ h

theorem visitAttrs_sim {R : σ → σ' → Prop} {V : Visitor σ} {V' : Visitor σ'} (hV : VisRel R V V') (stack : List StackElem) (pos : Pos)
    (l : List XAttr) : ∀ v v', R v v' → Both (Step R) (visitAttrs V stack pos l v) (visitAttrs V' stack pos l v') := by
  induction l with
  | nil => exact fun v v' h => ⟨h, rfl⟩
  | cons a l ih =>
    intro v v' h
    unfold visitAttrs
    rcases both_cases (hV.attr v v' h a.name.expanded a.value) with ⟨e, e', h1, h2⟩ | ⟨⟨w, r⟩, ⟨w', r'⟩, h1, h2, hw, hr⟩
    · rw [h1, h2]; trivial
    · rw [h1, h2]
      cases hr
      cases r with
      | error e => exact ⟨hw, rfl⟩
      | ok u => exact ih w w' hw

theorem readLoop_sim {R : σ → σ' → Prop} {V : Visitor σ} {V' : Visitor σ'} (hV : VisRel R V V') (dbg : Bool) :
    ∀ fuel er s v v', R v v' → Both (Step R) (readLoop dbg V fuel er v s) (readLoop dbg V' fuel er v' s) := by
  intro fuel
  induction fuel with
  | zero => intro er s v v' h; unfold readLoop; trivial
  | succ fuel ih =>
    intro er s v v' h
    unfold readLoop
    split
    · trivial
    · split
      · trivial
      · exact ⟨h, rfl⟩
      · exact ⟨h, rfl⟩
      · rename_i str pos s' hn
        rcases both_cases (hV.chars v v' h str pos) with ⟨e, e', h1, h2⟩ | ⟨⟨w, r⟩, ⟨w', r'⟩, h1, h2, hw, hr⟩
        · rw [h1, h2]; trivial
        · rw [h1, h2]
          cases hr
          cases r with
          | error e => exact ⟨hw, rfl⟩
          | ok u => exact ih er s' w w' hw
      · rename_i attrs ns pos s' hn
        simp only
        split
        · trivial
        · rename_i elem he
          have key : ∀ (r : Except Fault ((Except Fault (σ × Except VErr Unit)) × RState))
              (r' : Except Fault ((Except Fault (σ' × Except VErr Unit)) × RState)),
              Both (fun x y => Both (Step R) x.1 y.1 ∧ x.2 = y.2) r r' →
              Both (Step R)
                (match r with
                | .error f => .error f
                | .ok (.error f, _) => .error f
                | .ok (.ok (v, .error e), s) => .ok (v, .error (.propagate (e.toError s.stack pos)), s)
                | .ok (.ok (v, .ok ()), s) =>
                  match returnToDepth dbg (er.stackPos + 1) s with
                  | .error f => .error f
                  | .ok (.error e, s) => .ok (v, .error (.propagate e), s)
                  | .ok (.ok (), s) => readLoop dbg V fuel er v s)
                (match r' with
                | .error f => .error f
                | .ok (.error f, _) => .error f
                | .ok (.ok (v, .error e), s) => .ok (v, .error (.propagate (e.toError s.stack pos)), s)
                | .ok (.ok (v, .ok ()), s) =>
                  match returnToDepth dbg (er.stackPos + 1) s with
                  | .error f => .error f
                  | .ok (.error e, s) => .ok (v, .error (.propagate e), s)
                  | .ok (.ok (), s) => readLoop dbg V' fuel er v s) := by
            intro r r' hrr
            rcases both_cases hrr with ⟨e, e', rfl, rfl⟩ | ⟨⟨x, t⟩, ⟨y, t'⟩, rfl, rfl, hx, ht⟩
            · trivial
            · cases ht
              simp only at hx
              rcases both_cases hx with ⟨e, e', rfl, rfl⟩ | ⟨⟨w, r⟩, ⟨w', r'⟩, rfl, rfl, hw, hr⟩
              · trivial
              · cases hr
                cases r with
                | error e => exact ⟨hw, rfl⟩
                | ok u =>
                  simp only
                  split
                  · trivial
                  · exact ⟨hw, rfl⟩
                  · exact ih er _ w w' hw
          refine key _ _ ?_
          have ha := hV.elem v v' h { name := elem.name, ns := ns, depth := er.stackPos + 1 + 1 }
          revert ha
          generalize V.onElem v _ = a
          generalize V'.onElem v' _ = a'
          intro ha
          cases a <;> cases a' <;> try exact False.elim ha
          · exact ⟨ha, rfl⟩
          · simp only
            split
            · trivial
            · exact ⟨ha _, rfl⟩
          · simp only
            rcases both_cases (visitAttrs_sim hV s'.stack elem.pos attrs _ _ ha.1) with ⟨e, e', h1, h2⟩ | ⟨⟨w, r⟩, ⟨w', r'⟩, h1, h2, hw, hr⟩
            · rw [h1, h2]; trivial
            · rw [h1, h2]
              cases hr
              cases r with
              | error e => exact ⟨ha.2 _ _ hw _, rfl⟩
              | ok u =>
                simp only
                rcases both_cases (ih { ns, attrs, stackPos := er.stackPos + 1 } s' w w' hw) with ⟨e, e', h1, h2⟩ | ⟨⟨x, r, t⟩, ⟨x', r', t'⟩, h1, h2, hx, hr⟩
                · rw [h1, h2]; trivial
                · rw [h1, h2]
                  cases hr
                  exact ⟨ha.2 _ _ hx _, rfl⟩

/-- Reading with visitors and implementations that do the same gives the same. -/
theorem read_sim {R : σ → σ' → Prop} {V : Visitor σ} {V' : Visitor σ'} (hV : VisRel R V V') {D : Deser σ α} {D' : Deser σ' α}
    (hD : ∀ info, ActRel R (Both Eq) (D info) (D' info)) (dbg : Bool) (i : Input) : Both Eq (read dbg V D i) (read dbg V' D' i) := by
  unfold read
  split
  · trivial
  · exact rfl
  · rename_i er s hs
    have key : Both Eq (runDeser dbg V D (s.inner.items.length + 1) er s) (runDeser dbg V' D' (s.inner.items.length + 1) er s) := by
      unfold runDeser
      split
      · trivial
      · rename_i elem he
        simp only
        have := hD { name := elem.name, ns := er.ns, depth := er.stackPos + 1 }
        revert this
        generalize D _ = a
        generalize D' _ = a'
        intro ha
        have fin : ∀ (r r' : Except Fault ((Except Fault (Except VErr α)) × RState)), Both (fun x y => Both Eq x.1 y.1 ∧ x.2 = y.2) r r' →
            Both (α := Except VErr α × RState) (β := Except VErr α × RState) Eq
              (match r with
              | .error f => .error f
              | .ok (.error f, _) => .error f
              | .ok (.ok r, s) => .ok (r, s))
              (match r' with
              | .error f => .error f
              | .ok (.error f, _) => .error f
              | .ok (.ok r, s) => .ok (r, s)) := by
          intro r r' h
          rcases both_cases h with ⟨e, e', rfl, rfl⟩ | ⟨⟨x, t⟩, ⟨y, t'⟩, rfl, rfl, hx, ht⟩
          · trivial
          · cases ht
            rcases both_cases hx with ⟨e, e', h1, h2⟩ | ⟨a, b, h1, h2, hab⟩
            · simp only at h1 h2; subst h1 h2; trivial
            · simp only at h1 h2; subst h1 h2 hab; rfl
        refine fin _ _ ?_
        cases a <;> cases a' <;> try exact False.elim ha
        · exact ⟨ha, rfl⟩
        · simp only
          split
          · trivial
          · exact ⟨ha _, rfl⟩
        · simp only
          have : Both (Step R) (readTo dbg V (s.inner.items.length + 1) er ‹_› s) (readTo dbg V' (s.inner.items.length + 1) er ‹_› s) := by
            unfold readTo
            rw [he]
            simp only
            rcases both_cases (visitAttrs_sim hV s.stack elem.pos er.attrs _ _ ha.1) with ⟨e, e', h1, h2⟩ | ⟨⟨w, r⟩, ⟨w', r'⟩, h1, h2, hw, hr⟩
            · rw [h1, h2]; trivial
            · rw [h1, h2]
              cases hr
              cases r with
              | error e => exact ⟨hw, rfl⟩
              | ok u => exact readLoop_sim hV dbg _ _ _ _ _ hw
          rcases both_cases this with ⟨e, e', h1, h2⟩ | ⟨⟨x, r, t⟩, ⟨x', r', t'⟩, h1, h2, hx, hr⟩
          · rw [h1, h2]; trivial
          · rw [h1, h2]
            cases hr
            exact ⟨ha.2 _ _ hx _, rfl⟩
    rcases both_cases key with ⟨e, e', h1, h2⟩ | ⟨a, b, h1, h2, hab⟩
    · rw [h1, h2]; trivial
    · rw [h1, h2]
      cases hab
      exact both_refl _

/-! ### Visitors -/

def OfferRel (R : σ → σ' → Prop) (T : τ → τ' → Prop) : Offer σ τ → Offer σ' τ' → Prop
  | .back t, .back t' => T t t'
  | .take a, .take a' => ActRel R (Both (Step T)) a a'
  | _, _ => False

/-- Finalized alike; and if that succeeds, the values are the same up to `f`. -/
def Final (f : α → β) (out : τ → Option α) (out' : τ' → Option β) (x : τ × Ret VErr Unit) (y : τ' × Ret VErr Unit) : Prop :=
  x.2 = y.2 ∧ (x.2 = .ok () → out' y.1 = (out x.1).map f)

structure RawRel (R : σ → σ' → Prop) (T : τ → τ' → Prop) (f : α → β) (r : Raw σ τ α) (r' : Raw σ' τ' β) : Prop where
  new : T r.new r'.new
  attr : ∀ t t', T t t' → ∀ n v, Both (Step T) (r.attr t n v) (r'.attr t' n v)
  characters : ∀ t t', T t t' → ∀ s pos, Both (Step T) (r.characters t s pos) (r'.characters t' s pos)
  element : ∀ t t', T t t' → ∀ info, Both (OfferRel R T) (r.element t info) (r'.element t' info)
  finalize : ∀ t t', T t t' → Both (Final f r.out r'.out) (r.finalize t none) (r'.finalize t' none)

/-- What a result of a child's read is, for some supply. -/
theorem give_map (s : Supply σ) (a : Action σ ρ) (f : ρ → ρ') : give s (a.map f) = f (give s a) := by
  cases a <;> rfl

theorem run_step {r : Raw σ τ α} {h : List (Call σ)} {t t' : τ} {c : Call σ} (ht : run r h r.new = .ok t) (hs : step r t c = .ok t') :
    run r (h ++ [c]) r.new = .ok t' := by
  rw [run_snoc, ht]
  exact hs

/-- Related states are reachable ones. -/
theorem RawRel.reached {R : σ → σ' → Prop} {T : τ → τ' → Prop} {f : α → β} {r : Raw σ τ α} {r' : Raw σ' τ' β}
    (h : RawRel R T f r r') (sup : Supply σ) : RawRel R (fun t t' => T t t' ∧ Reached r t) f r r' where
  new := ⟨h.new, [], rfl⟩
  attr t t' ht n v := by
    have := h.attr t t' ht.1 n v
    rcases both_cases this with ⟨e, e', h1, h2⟩ | ⟨⟨w, x⟩, ⟨w', x'⟩, h1, h2, hw, hx⟩
    · rw [h1, h2]; trivial
    · rw [h1, h2]
      obtain ⟨hh, hr⟩ := ht.2
      exact ⟨⟨hw, _, run_step hr (c := .attr n v) (by simp [step, h1, Except.map])⟩, hx⟩
  characters t t' ht s pos := by
    have := h.characters t t' ht.1 s pos
    rcases both_cases this with ⟨e, e', h1, h2⟩ | ⟨⟨w, x⟩, ⟨w', x'⟩, h1, h2, hw, hx⟩
    · rw [h1, h2]; trivial
    · rw [h1, h2]
      obtain ⟨hh, hr⟩ := ht.2
      exact ⟨⟨hw, _, run_step hr (c := .chars s pos) (by simp [step, h1, Except.map])⟩, hx⟩
  element t t' ht info := by
    have := h.element t t' ht.1 info
    obtain ⟨hh, hr⟩ := ht.2
    rcases both_cases this with ⟨e, e', h1, h2⟩ | ⟨o, o', h1, h2, ho⟩
    · rw [h1, h2]; trivial
    · rw [h1, h2]
      have key : ∀ s : Supply σ, ∀ x : τ × Ret VErr Unit, (∀ a, o = .take a → give s a = .ok x) → (∀ t, o ≠ .back t) → Reached r x.1 := by
        intro s x hg hb
        refine ⟨_, run_step hr (c := .elem info s) ?_⟩
        simp only [step, h1]
        cases o with
        | back t => exact absurd rfl (hb t)
        | take a => simp [hg a rfl, Except.map]
      cases o with
      | back w =>
        cases o' with
        | take a => exact False.elim ho
        | back w' => exact ⟨ho, _, run_step hr (c := .elem info sup) (by simp [step, h1])⟩
      | take a =>
        cases o' with
        | back w => exact False.elim ho
        | take a' =>
          show ActRel R _ a a'
          change ActRel R (Both (Step T)) a a' at ho
          cases a <;> cases a' <;> try exact False.elim ho
          · rename_i x y
            show Both _ x y
            rcases both_cases (show Both _ x y from ho) with ⟨e, e', rfl, rfl⟩ | ⟨w, w', rfl, rfl, hw, hx⟩
            · trivial
            · exact ⟨⟨hw, key sup w (fun a ha => by cases ha; rfl) (fun _ h => by cases h)⟩, hx⟩
          · rename_i k k'
            intro s
            rcases both_cases (ho s) with ⟨e, e', h3, h4⟩ | ⟨w, w', h3, h4, hw, hx⟩
            · rw [h3, h4]; trivial
            · rw [h3, h4]
              exact ⟨⟨hw, key { sup with str := s } w (fun a ha => by cases ha; exact h3) (fun _ h => by cases h)⟩, hx⟩
          · rename_i s k s' k'
            refine ⟨ho.1, fun x x' hx res => ?_⟩
            rcases both_cases (ho.2 x x' hx res) with ⟨e, e', h3, h4⟩ | ⟨w, w', h3, h4, hw, hx⟩
            · rw [h3, h4]; trivial
            · rw [h3, h4]
              exact ⟨⟨hw, key { str := .ok "", sub := x, res := res } w (fun a ha => by cases ha; exact h3) (fun _ h => by cases h)⟩, hx⟩
  finalize t t' ht := h.finalize t t' ht.1

theorem same_of {g : β → γ} {r' : Raw σ' τ' β} {r'' : Raw σ' τ'' γ} (ha : Alike g r' r'') {h : List (Call σ')} {t' : τ'} {u : τ''}
    (h1 : run r' h r'.new = .ok t') (h2 : run r'' h r''.new = .ok u) : SameAnswers g r' r'' t' u := by
  rcases ha h with ⟨e, he, _⟩ | ⟨x, y, hx, hy, same⟩
  · rw [h1] at he; cases he
  · rw [h1] at hx; rw [h2] at hy
    cases hx; cases hy
    exact same

/-- Equal but for the first component. -/
theorem map_snd_cases {x : Except Fault (α × ρ)} {y : Except Fault (β × ρ)} (h : y.map Prod.snd = x.map Prod.snd) :
    (∃ e, x = .error e ∧ y = .error e) ∨ ∃ a b z, x = .ok (a, z) ∧ y = .ok (b, z) := by
  cases x with
  | error e =>
    cases y with
    | error e' => simp [Except.map] at h; subst h; exact .inl ⟨_, rfl, rfl⟩
    | ok b => simp [Except.map] at h
  | ok a =>
    cases y with
    | error e' => simp [Except.map] at h
    | ok b =>
      simp only [Except.map, Except.ok.injEq] at h
      exact .inr ⟨a.1, b.1, a.2, rfl, by rw [← h]⟩

theorem attr_alike {T : τ → τ' → Prop} {E : Type} {C : τ' → τ'' → Prop} {x : Except Fault (τ × E)} {y : Except Fault (τ' × E)} {z : Except Fault (τ'' × E)}
    (h : Both (Step T) x y) (hz : z.map Prod.snd = y.map Prod.snd) (hc : ∀ a b e, y = .ok (a, e) → z = .ok (b, e) → C a b) :
    Both (Step fun t u => ∃ t', T t t' ∧ C t' u) x z := by
  rcases both_cases h with ⟨e, e', rfl, rfl⟩ | ⟨⟨a, e⟩, ⟨b, e'⟩, rfl, rfl, hab, he⟩
  · rcases map_snd_cases hz with ⟨_, _, rfl⟩ | ⟨_, _, _, h, _⟩
    · trivial
    · cases h
  · rcases map_snd_cases hz with ⟨_, h, _⟩ | ⟨p, q, w, h, rfl⟩
    · cases h
    · cases h
      exact ⟨⟨b, hab, hc _ _ _ rfl rfl⟩, he⟩

theorem final_alike {f : α → β} {g : β → γ} {r' : Raw σ' τ' β} {r'' : Raw σ' τ'' γ} {out : τ → Option α} {x : Except Fault (τ × Ret VErr Unit)}
    {t' : τ'} {u : τ''} (h : Both (Final f out r'.out) x (r'.finalize t' none))
    (same : (r''.finalize u none).map (fun x => (x.2, r''.out x.1)) = (r'.finalize t' none).map (fun x => (x.2, (r'.out x.1).map g))) :
    Both (Final (g ∘ f) out r''.out) x (r''.finalize u none) := by
  rcases both_cases h with ⟨e, e', h3, h4⟩ | ⟨o, o', h3, h4, ho⟩
  · rw [h4] at same
    cases h5 : r''.finalize u none with
    | error e => rw [h3]; trivial
    | ok x => rw [h5] at same; simp [Except.map] at same
  · rw [h4] at same
    cases h5 : r''.finalize u none with
    | error e => rw [h5] at same; simp [Except.map] at same
    | ok x =>
      rw [h5] at same
      simp only [Except.map, Except.ok.injEq, Prod.mk.injEq] at same
      rw [h3]
      refine ⟨ho.1.trans same.1.symm, fun hk => ?_⟩
      rw [same.2, ho.2 hk]
      simp

/-- Visitors that cannot be told apart can be exchanged. -/
theorem RawRel.alike {R : σ → σ' → Prop} {T : τ → τ' → Prop} {f : α → β} {g : β → γ} {r : Raw σ τ α} {r' : Raw σ' τ' β} {r'' : Raw σ' τ'' γ}
    (h : RawRel R T f r r') (ha : Alike g r' r'') (sup : Supply σ') :
    RawRel R (fun t u => ∃ t', T t t' ∧ ∃ h, run r' h r'.new = .ok t' ∧ run r'' h r''.new = .ok u) (g ∘ f) r r'' where
  new := ⟨_, h.new, [], rfl, rfl⟩
  attr := by
    rintro t u ⟨t', ht, hh, h1, h2⟩ n v
    have same := same_of ha h1 h2
    refine attr_alike (h.attr t t' ht n v) (same.attr n v) fun a b e h3 h4 => ?_
    exact ⟨_, run_step h1 (c := .attr n v) (by simp [step, h3, Except.map]), run_step h2 (by simp [step, h4, Except.map])⟩
  characters := by
    rintro t u ⟨t', ht, hh, h1, h2⟩ s pos
    have same := same_of ha h1 h2
    refine attr_alike (h.characters t t' ht s pos) (same.characters s pos) fun a b e h3 h4 => ?_
    exact ⟨_, run_step h1 (c := .chars s pos) (by simp [step, h3, Except.map]), run_step h2 (by simp [step, h4, Except.map])⟩
  element := by
    rintro t u ⟨t', ht, hh, h1, h2⟩ info
    have same := (same_of ha h1 h2).element info
    rcases both_cases (h.element t t' ht info) with ⟨e, e', h3, h4⟩ | ⟨o, o', h3, h4, ho⟩
    · rw [h4] at same
      cases h5 : r''.element u info with
      | error e => rw [h3]; trivial
      | ok x => rw [h5] at same; simp [Except.map] at same
    · rw [h4] at same
      cases h5 : r''.element u info with
      | error e => rw [h5] at same; simp [Except.map] at same
      | ok o'' =>
        rw [h5] at same
        simp only [Except.map, Except.ok.injEq] at same
        rw [h3]
        cases o with
        | back w =>
          cases o' with
          | take a => exact False.elim ho
          | back w' =>
            cases o'' with
            | take a => simp [offered] at same
            | back w'' =>
              exact ⟨w', ho, _, run_step h1 (c := .elem info sup) (by simp [step, h4]), run_step h2 (by simp [step, h5])⟩
        | take a =>
          cases o' with
          | back w => exact False.elim ho
          | take a' =>
            cases o'' with
            | back w => simp [offered] at same
            | take a'' =>
              simp only [offered, Option.some.injEq] at same
              change ActRel R (Both (Step T)) a a' at ho
              show ActRel R _ a a''
              have key : ∀ (s : Supply σ') (x : Except Fault (τ × Ret VErr Unit)), Both (Step T) x (give s a') →
                  Both (Step fun t u => ∃ t', T t t' ∧ ∃ h, run r' h r'.new = .ok t' ∧ run r'' h r''.new = .ok u) x (give s a'') := by
                intro s x hx
                refine attr_alike hx ?_ fun p q e h6 h7 => ?_
                · have := congrArg (give s) same
                  rw [give_map, give_map] at this
                  exact this
                · exact ⟨_, run_step h1 (c := .elem info s) (by simp [step, h4, h6, Except.map]), run_step h2 (by simp [step, h5, h7, Except.map])⟩
              cases a' with
              | done x =>
                cases a'' <;> simp only [Action.map] at same <;> try cases same
                cases a <;> try exact False.elim ho
                exact key sup _ ho
              | readString k =>
                cases a'' <;> simp only [Action.map] at same <;> try cases same
                cases a <;> try exact False.elim ho
                exact fun x => key { sup with str := x } _ (ho x)
              | readTo s k =>
                cases a'' <;> simp only [Action.map, Action.readTo.injEq] at same <;> try cases same
                cases a <;> try exact False.elim ho
                rename_i h _ _ _
                refine ⟨?_, fun x x' hx res => key { sup with sub := x', res := res } _ (ho.2 x x' hx res)⟩
                have := ho.1
                simp_all
  finalize := by
    rintro t u ⟨t', ht, hh, h1, h2⟩
    exact final_alike (h.finalize t t' ht) ((same_of ha h1 h2).finalize none)

end

end SX.Whole
