import Verif.Model.Stack
import Verif.Proof.WholeRead

/-
Two sets of visitors that do the same overflow the stack on the same inputs.
-/
namespace SX.Whole
open SX.Open Spec Spec.Open SX.Gen Spec.Gen

section
variable {σ σ' τ τ' α β ρ ρ' : Type}

/-- Both overflow the stack, or neither. -/
def BothIn (Q : α → β → Prop) : Option (Except Fault α) → Option (Except Fault β) → Prop
  | none, none => True
  | some x, some y => Both Q x y
  | _, _ => False

theorem bothIn_cases {Q : α → β → Prop} {x : Option (Except Fault α)} {y : Option (Except Fault β)} (h : BothIn Q x y) :
    (x = none ∧ y = none) ∨ (∃ e e', x = some (.error e) ∧ y = some (.error e')) ∨ ∃ a b, x = some (.ok a) ∧ y = some (.ok b) ∧ Q a b := by
  cases x <;> cases y <;> try exact False.elim h
  · exact .inl ⟨rfl, rfl⟩
  · rcases both_cases h with ⟨e, e', rfl, rfl⟩ | ⟨a, b, rfl, rfl, h⟩
    · exact .inr (.inl ⟨_, _, rfl, rfl⟩)
    · exact .inr (.inr ⟨_, _, rfl, rfl, h⟩)

theorem readLoopIn_sim {R : σ → σ' → Prop} {V : Visitor σ} {V' : Visitor σ'} (hV : VisRel R V V') (dbg : Bool) :
    ∀ fuel room er s v v', R v v' → BothIn (Step R) (readLoopIn dbg V fuel room er v s) (readLoopIn dbg V' fuel room er v' s) := by
  intro fuel
  induction fuel with
  | zero => intro room er s v v' h; unfold readLoopIn; trivial
  | succ fuel ih =>
    intro room er s v v' h
    unfold readLoopIn
    split
    · trivial
    · split
      · trivial
      · exact ⟨h, rfl⟩
      · exact ⟨h, rfl⟩
      · rename_i str pos s' hn
        rcases both_cases (hV.chars v v' h str pos) with ⟨e, e', h1, h2⟩ | ⟨⟨w, r⟩, ⟨w', r'⟩, h1, h2, hw, hr⟩
        · rw [h1, h2]; trivial
        · rw [h1, h2]
          cases hr
          cases r with
          | error e => exact ⟨hw, rfl⟩
          | ok u => exact ih room er s' w w' hw
      · rename_i attrs ns pos s' hn
        simp only
        split
        · trivial
        · rename_i elem he
          have key : ∀ (r : Option (Except Fault ((Except Fault (σ × Except VErr Unit)) × RState)))
              (r' : Option (Except Fault ((Except Fault (σ' × Except VErr Unit)) × RState))),
              BothIn (fun x y => Both (Step R) x.1 y.1 ∧ x.2 = y.2) r r' →
              BothIn (Step R)
                (match r with
                | none => none
                | some (.error f) => some (.error f)
                | some (.ok (.error f, _)) => some (.error f)
                | some (.ok (.ok (v, .error e), s)) => some (.ok (v, .error (.propagate (e.toError s.stack pos)), s))
                | some (.ok (.ok (v, .ok ()), s)) =>
                  match returnToDepth dbg (er.stackPos + 1) s with
                  | .error f => some (.error f)
                  | .ok (.error e, s) => some (.ok (v, .error (.propagate e), s))
                  | .ok (.ok (), s) => readLoopIn dbg V fuel room er v s)
                (match r' with
                | none => none
                | some (.error f) => some (.error f)
                | some (.ok (.error f, _)) => some (.error f)
                | some (.ok (.ok (v, .error e), s)) => some (.ok (v, .error (.propagate (e.toError s.stack pos)), s))
                | some (.ok (.ok (v, .ok ()), s)) =>
                  match returnToDepth dbg (er.stackPos + 1) s with
                  | .error f => some (.error f)
                  | .ok (.error e, s) => some (.ok (v, .error (.propagate e), s))
                  | .ok (.ok (), s) => readLoopIn dbg V' fuel room er v s) := by
            intro r r' hrr
            rcases bothIn_cases hrr with ⟨rfl, rfl⟩ | ⟨e, e', rfl, rfl⟩ | ⟨⟨x, t⟩, ⟨y, t'⟩, rfl, rfl, hx, ht⟩
            · trivial
            · trivial
            · cases ht
              simp only at hx
              rcases both_cases hx with ⟨e, e', rfl, rfl⟩ | ⟨⟨w, r⟩, ⟨w', r'⟩, rfl, rfl, hw, hr⟩
              · trivial
              · cases hr
                cases r with
                | error e => exact ⟨hw, rfl⟩
                | ok u =>
                  simp only
                  split
                  · trivial
                  · exact ⟨hw, rfl⟩
                  · exact ih room er _ w w' hw
          refine key _ _ ?_
          have ha := hV.elem v v' h { name := elem.name, ns := ns, depth := er.stackPos + 1 + 1 }
          revert ha
          generalize V.onElem v _ = a
          generalize V'.onElem v' _ = a'
          intro ha
          cases a <;> cases a' <;> try exact False.elim ha
          · exact ⟨ha, rfl⟩
          · simp only
            split
            · trivial
            · exact ⟨ha _, rfl⟩
          · cases room with
            | zero => trivial
            | succ room =>
              simp only
              rcases both_cases (visitAttrs_sim hV s'.stack elem.pos attrs _ _ ha.1) with ⟨e, e', h1, h2⟩ | ⟨⟨w, r⟩, ⟨w', r'⟩, h1, h2, hw, hr⟩
              · rw [h1, h2]; trivial
              · rw [h1, h2]
                cases hr
                cases r with
                | error e => exact ⟨ha.2 _ _ hw _, rfl⟩
                | ok u =>
                  simp only
                  rcases bothIn_cases (ih room { ns, attrs, stackPos := er.stackPos + 1 } s' w w' hw) with
                    ⟨h1, h2⟩ | ⟨e, e', h1, h2⟩ | ⟨⟨x, r, t⟩, ⟨x', r', t'⟩, h1, h2, hx, hr⟩
                  · rw [h1, h2]; trivial
                  · rw [h1, h2]; trivial
                  · rw [h1, h2]
                    cases hr
                    exact ⟨ha.2 _ _ hx _, rfl⟩

/-- Reading with visitors and implementations that do the same overflows the stack or gives the same. -/
theorem readIn_sim {R : σ → σ' → Prop} {V : Visitor σ} {V' : Visitor σ'} (hV : VisRel R V V') {D : Deser σ α} {D' : Deser σ' α}
    (hD : ∀ info, ActRel R (Both Eq) (D info) (D' info)) (dbg : Bool) (room : Nat) (i : Input) :
    BothIn Eq (readIn dbg V D room i) (readIn dbg V' D' room i) := by
  unfold readIn
  split
  · trivial
  · exact rfl
  · rename_i er s hs
    have key : BothIn Eq (runDeserIn dbg V D (s.inner.items.length + 1) room er s) (runDeserIn dbg V' D' (s.inner.items.length + 1) room er s) := by
      unfold runDeserIn
      split
      · trivial
      · rename_i elem he
        simp only
        have := hD { name := elem.name, ns := er.ns, depth := er.stackPos + 1 }
        revert this
        generalize D _ = a
        generalize D' _ = a'
        intro ha
        have fin : ∀ (r r' : Option (Except Fault ((Except Fault (Except VErr α)) × RState))),
            BothIn (fun x y => Both Eq x.1 y.1 ∧ x.2 = y.2) r r' →
            BothIn (α := Except VErr α × RState) (β := Except VErr α × RState) Eq
              (match r with
              | none => none
              | some (.error f) => some (.error f)
              | some (.ok (.error f, _)) => some (.error f)
              | some (.ok (.ok r, s)) => some (.ok (r, s)))
              (match r' with
              | none => none
              | some (.error f) => some (.error f)
              | some (.ok (.error f, _)) => some (.error f)
              | some (.ok (.ok r, s)) => some (.ok (r, s))) := by
          intro r r' h
          rcases bothIn_cases h with ⟨rfl, rfl⟩ | ⟨e, e', rfl, rfl⟩ | ⟨⟨x, t⟩, ⟨y, t'⟩, rfl, rfl, hx, ht⟩
          · trivial
          · trivial
          · cases ht
            rcases both_cases hx with ⟨e, e', h1, h2⟩ | ⟨a, b, h1, h2, hab⟩
            · simp only at h1 h2; subst h1 h2; trivial
            · simp only at h1 h2; subst h1 h2 hab; rfl
        refine fin _ _ ?_
        cases a <;> cases a' <;> try exact False.elim ha
        · exact ⟨ha, rfl⟩
        · simp only
          split
          · trivial
          · exact ⟨ha _, rfl⟩
        · simp only
          have : BothIn (Step R) (readToIn dbg V (s.inner.items.length + 1) room er ‹_› s)
              (readToIn dbg V' (s.inner.items.length + 1) room er ‹_› s) := by
            unfold readToIn
            cases room with
            | zero => trivial
            | succ room =>
              rw [he]
              simp only
              rcases both_cases (visitAttrs_sim hV s.stack elem.pos er.attrs _ _ ha.1) with ⟨e, e', h1, h2⟩ | ⟨⟨w, r⟩, ⟨w', r'⟩, h1, h2, hw, hr⟩
              · rw [h1, h2]; trivial
              · rw [h1, h2]
                cases hr
                cases r with
                | error e => exact ⟨hw, rfl⟩
                | ok u => exact readLoopIn_sim hV dbg _ _ _ _ _ _ hw
          rcases bothIn_cases this with ⟨h1, h2⟩ | ⟨e, e', h1, h2⟩ | ⟨⟨x, r, t⟩, ⟨x', r', t'⟩, h1, h2, hx, hr⟩
          · rw [h1, h2]; trivial
          · rw [h1, h2]; trivial
          · rw [h1, h2]
            cases hr
            exact ⟨ha.2 _ _ hx _, rfl⟩
    rcases bothIn_cases key with ⟨h1, h2⟩ | ⟨e, e', h1, h2⟩ | ⟨a, b, h1, h2, hab⟩
    · rw [h1, h2]; trivial
    · rw [h1, h2]; trivial
    · rw [h1, h2]
      cases hab
      obtain ⟨x, t⟩ := a
      cases x with
      | error e => rfl
      | ok x =>
        simp only
        split
        · trivial
        · rfl
        · rfl

variable {c : Crate} {code : Emitted} {types : Types} {env : Env} {sOf : Nat → MStruct} {eOf : Nat → MEnum}

/-- The emitted code overflows the stack where the derived implementations do. -/
theorem readIn_rel (F : Facts c code types env sOf eOf) (dbg : Bool) (room : Nat) (ty : Ty) (i : Input) :
    BothIn Eq (readTyIn dbg env room ty i) (c.readIn code types dbg room ty i) := by
  refine readIn_sim (vis_rel F) (fun info => ?_) dbg room i
  have h := ActRel.of_map (deser_rel F ty)
  have := ActRel.map (Q' := Both Eq) h id returned (by
    rintro r _ rfl
    rcases r with _ | _ | _
    · trivial
    · rfl
    · rfl)
  have he : ∀ a : Action DState (Except Fault (Except VErr Val)), a.map id = a := by intro a; cases a <;> rfl
  rw [he] at this
  exact this

end
end SX.Whole
