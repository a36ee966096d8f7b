import Verif.Spec.OpenWrap
import Verif.Spec.OpenFails
import Verif.Spec.Evolve
import Verif.Spec.Prefix
import Verif.Proof.OpenBlanket
import Verif.Proof.OpenRoundBlanket

namespace SX.Open
open Spec Spec.Open

variable {σ τ α β γ : Type}

theorem deser_wrap (V : Visitor σ) (make : β → Ret VErr γ) (D : Deser σ β) (path : List StackElem) (x : Elem) :
    deser V (wrap make D) path x = match deser V D path x with
      | .error f => .error f
      | .ok (.error e, stop) => .ok (.error e, stop)
      | .ok (.ok w, stop) =>
        match make w with
        | .ok v => .ok (.ok v, stop)
        | .err e => .ok (.error e, stop)
        | .panic => .error .panic := by
  rw [deser_perform, deser_perform]
  simp only [wrap, perform_map]
  rcases perform V path x (D (infoOf path x)) with f | ⟨f | (e | w), stop⟩
  · rfl
  · rfl
  · rfl
  · simp only [Except.map]
    rcases make w with v | e | _ <;> rfl

theorem reads_wrap (V : Visitor σ) (make : β → Ret VErr γ) (D : Deser σ β) (path : List StackElem) (x : Elem) (v : γ) :
    Spec.Open.Reads V (wrap make D) path x v ↔ ∃ w, Spec.Open.Reads V D path x w ∧ make w = .ok v := by
  unfold Spec.Open.Reads
  simp only [deser_wrap]
  rcases deser V D path x with f | ⟨e | w, stop⟩
  · simp
  · simp
  · constructor
    · rintro ⟨stop', h⟩
      refine ⟨w, ⟨stop, rfl⟩, ?_⟩
      dsimp only at h
      cases hm : make w with
      | ok v' => rw [hm] at h; cases h; rfl
      | err e => rw [hm] at h; cases h
      | panic => rw [hm] at h; cases h
    · rintro ⟨w', ⟨stop', h⟩, hm⟩
      cases h
      exact ⟨stop, by dsimp only; rw [hm]⟩

theorem fails_wrap (V : Visitor σ) (make : β → Ret VErr γ) (D : Deser σ β) (path : List StackElem) (x : Elem) (e : VErr) (stop : Stop) :
    deser V (wrap make D) path x = .ok (.error e, stop) ↔
      deser V D path x = .ok (.error e, stop) ∨ ∃ w, deser V D path x = .ok (.ok w, stop) ∧ make w = .err e := by
  rw [deser_wrap]
  rcases deser V D path x with f | ⟨e' | w, stop'⟩
  · simp
  · simp
  · cases hm : make w with
    | ok v => simp [hm]
    | err e' =>
      simp only [hm, Except.ok.injEq, Prod.mk.injEq, Except.error.injEq, reduceCtorEq, false_and, false_or]
      constructor
      · rintro ⟨rfl, rfl⟩; exact ⟨w, ⟨rfl, rfl⟩, hm⟩
      · rintro ⟨w', ⟨rfl, rfl⟩, h⟩; rw [hm] at h; cases h; exact ⟨rfl, rfl⟩
    | panic => simp [hm]

theorem wrap_noSwallow {make : β → Ret VErr γ} {D : Deser σ β} (h : DeserNoSwallow D) : DeserNoSwallow (wrap make D) := by
  intro info
  refine noSwallow_map (h info) fun r hr v hv => ?_
  rcases r with f | (e | w)
  · cases hv
  · cases hv
  · exact hr w rfl

theorem wrap_passesOn {make : β → Ret VErr γ} {D : Deser σ β} (h : DeserPassesOn D) : DeserPassesOn (wrap make D) := by
  intro info
  have := h info
  unfold wrap
  revert this
  generalize D info = a
  cases a with
  | done r => exact fun _ => trivial
  | readString k =>
    intro h e
    have h := h e
    show (match k (.error e) with
      | .error f => _
      | .ok (.error e) => _
      | .ok (.ok v) => _) = _
    rw [h]
  | readTo sub k =>
    intro h s e
    have h := h s e
    show (match k s (.error e) with
      | .error f => _
      | .ok (.error e) => _
      | .ok (.ok v) => _) = _
    rw [h]

theorem deCollect_strict {C : Collector β γ} {D : Deser σ β} (h : DeserNoSwallow D) : Strict (deCollect C D) where
  init info := noSwallow_map (h info) fun r hr v h => by
    rcases r with f | (e | v)
    · cases h
    · cases h
    · exact hr v rfl
  update c info := by
    simp only [deCollect]
    split
    · trivial
    · exact noSwallow_map (h info) fun r hr h => by
        rcases r with f | (e | v)
        · cases h
        · cases h
        · exact hr v rfl

theorem makes_collect (V : Visitor σ) (C : Collector β γ) (D : Deser σ β) (path : List StackElem) (x : Elem) (c : γ) :
    makes V path x ((deCollect C D).init (infoOf path x)) = some c ↔ ∃ w, Spec.Open.Reads V D path x w ∧ C.first x.name.expanded w = .ok c := by
  unfold Spec.Open.Reads makes
  simp only [deCollect, perform_map, deser_perform]
  rcases perform V path x (D (infoOf path x)) with f | ⟨f | (e | w), stop⟩
  · simp [Except.map]
  · simp [Except.map, deserRet]
  · simp [Except.map, deserRet]
  · simp only [Except.map, deserRet]
    constructor
    · intro h
      refine ⟨w, ⟨stop, rfl⟩, ?_⟩
      cases hm : C.first x.name.expanded w with
      | ok v' => rw [show (infoOf path x).name.expanded = x.name.expanded from rfl, hm] at h; cases h; rfl
      | err e => rw [show (infoOf path x).name.expanded = x.name.expanded from rfl, hm] at h; cases h
      | panic => rw [show (infoOf path x).name.expanded = x.name.expanded from rfl, hm] at h; cases h
    · rintro ⟨w', ⟨stop', h⟩, hm⟩
      cases h
      rw [show (infoOf path x).name.expanded = x.name.expanded from rfl, hm]

theorem changes_collect (V : Visitor σ) (C : Collector β γ) (D : Deser σ β) (path : List StackElem) (x : Elem) (c c' : γ) :
    changes V path x ((deCollect C D).update c (infoOf path x)) = some c' ↔
      C.refuse c x.name.expanded = none ∧ ∃ w, Spec.Open.Reads V D path x w ∧ C.more c x.name.expanded w = (c', .ok ()) := by
  unfold Spec.Open.Reads changes
  simp only [deCollect, deser_perform]
  rw [show (infoOf path x).name.expanded = x.name.expanded from rfl]
  cases hr : C.refuse c x.name.expanded with
  | some e => simp [perform]
  | none =>
    simp only [perform_map]
    rcases perform V path x (D (infoOf path x)) with f | ⟨f | (e | w), stop⟩
    · simp [Except.map]
    · simp [Except.map, deserRet]
    · simp [Except.map, deserRet]
    · simp only [Except.map, deserRet, true_and]
      constructor
      · intro h
        refine ⟨w, ⟨stop, rfl⟩, ?_⟩
        rcases hm : C.more c x.name.expanded w with ⟨c'', u | e | _⟩
        · rw [hm] at h; cases h; rfl
        · rw [hm] at h; cases h
        · rw [hm] at h; cases h
      · rintro ⟨w', ⟨stop', h⟩, hm⟩
        cases h
        rw [hm]

theorem fill_collect (V : Visitor σ) (C : Collector β γ) (D : Deser σ β) (path : List StackElem) (n : EName) (xs : List Elem)
    (hn : ∀ x ∈ xs, x.name.expanded = n) (c : Option γ) (r : Option γ) :
    fill V path (deCollect C D) c xs = some r ↔ ∃ ws, Rowwise (Spec.Open.Reads V D path) xs ws ∧ gather C n c ws = some r := by
  induction xs generalizing c with
  | nil =>
    constructor
    · intro h
      exact ⟨[], .nil, by cases c <;> exact h⟩
    · rintro ⟨ws, hw, h⟩
      cases hw
      cases c <;> exact h
  | cons x xs ih =>
    have hx := hn x (List.mem_cons_self ..)
    have ih := fun c => ih (fun y hy => hn y (List.mem_cons_of_mem _ hy)) c
    cases c with
    | none =>
      simp only [fill]
      cases hm : makes V path x ((deCollect C D).init (infoOf path x)) with
      | none =>
        simp only [reduceCtorEq, false_iff]
        rintro ⟨ws, hw, h⟩
        cases hw with
        | cons h1 h2 =>
          rename_i w ws
          cases hf : C.first n w with
          | ok c' => rw [← hx] at hf; rw [(makes_collect V C D path x c').mpr ⟨w, h1, hf⟩] at hm; cases hm
          | err e => simp [gather, hf] at h
          | panic => simp [gather, hf] at h
      | some c' =>
        simp only
        rw [ih]
        obtain ⟨w, hw, hf⟩ := (makes_collect V C D path x c').mp hm
        rw [hx] at hf
        constructor
        · rintro ⟨ws, h1, h2⟩
          exact ⟨w :: ws, .cons hw h1, by simp only [gather, hf]; exact h2⟩
        · rintro ⟨ws, h1, h2⟩
          cases h1 with
          | cons g1 g2 =>
            rename_i w' ws
            obtain ⟨s, hw⟩ := hw
            obtain ⟨s', g1⟩ := g1
            rw [hw] at g1
            cases g1
            refine ⟨ws, g2, ?_⟩
            simp only [gather, hf] at h2
            exact h2
    | some c =>
      simp only [fill]
      cases hm : changes V path x ((deCollect C D).update c (infoOf path x)) with
      | none =>
        simp only [reduceCtorEq, false_iff]
        rintro ⟨ws, hw, h⟩
        cases hw with
        | cons h1 h2 =>
          rename_i w ws
          cases hr : C.refuse c n with
          | some e => simp [gather, hr] at h
          | none =>
            rcases hf : C.more c n w with ⟨c', u | e | _⟩
            · rw [← hx] at hf hr
              rw [(changes_collect V C D path x c c').mpr ⟨hr, w, h1, hf⟩] at hm
              cases hm
            · simp [gather, hr, hf] at h
            · simp [gather, hr, hf] at h
      | some c' =>
        simp only
        rw [ih]
        obtain ⟨hr, w, hw, hf⟩ := (changes_collect V C D path x c c').mp hm
        rw [hx] at hf hr
        constructor
        · rintro ⟨ws, h1, h2⟩
          exact ⟨w :: ws, .cons hw h1, by simp only [gather, hr, hf]; exact h2⟩
        · rintro ⟨ws, h1, h2⟩
          cases h1 with
          | cons g1 g2 =>
            rename_i w' ws
            obtain ⟨s, hw⟩ := hw
            obtain ⟨s', g1⟩ := g1
            rw [hw] at g1
            cases g1
            refine ⟨ws, g2, ?_⟩
            simp only [gather, hr, hf] at h2
            exact h2

theorem gather_none {C : Collector β γ} {n : EName} {c : Option γ} {ws : List β} (h : gather C n c ws = some none) : c = none ∧ ws = [] := by
  induction ws generalizing c with
  | nil => cases c <;> cases h; exact ⟨rfl, rfl⟩
  | cons w ws ih =>
    exfalso
    cases c with
    | none =>
      simp only [gather] at h
      split at h
      · exact absurd (ih h).1 (by simp)
      · cases h
    | some c =>
      simp only [gather] at h
      split at h
      · exact absurd (ih h).1 (by simp)
      · cases h

/-- The first value, and those after it. -/
theorem perform_first (V : Visitor σ) (C : Collector β γ) (D : Deser σ β) (here : List StackElem) (y : Elem) (e : VErr) (stop : Stop) :
    perform V here y ((deCollect C D).init (infoOf here y)) = .ok (.err e, stop) ↔
      deser V D here y = .ok (.error e, stop) ∨ ∃ w, deser V D here y = .ok (.ok w, stop) ∧ C.first y.name.expanded w = .err e := by
  simp only [deCollect, perform_map, deser_perform]
  rw [show (infoOf here y).name.expanded = y.name.expanded from rfl]
  rcases perform V here y (D (infoOf here y)) with f | ⟨f | (e' | w), st⟩
  · simp [Except.map]
  · simp [Except.map, deserRet]
  · simp [Except.map, deserRet]
  · simp only [Except.map, deserRet, Except.ok.injEq, Prod.mk.injEq, reduceCtorEq, false_and, false_or]
    constructor
    · rintro ⟨h, rfl⟩
      exact ⟨w, ⟨rfl, rfl⟩, h⟩
    · rintro ⟨w', ⟨rfl, rfl⟩, h⟩
      exact ⟨h, rfl⟩

theorem perform_more (V : Visitor σ) (C : Collector β γ) (D : Deser σ β) (here : List StackElem) (y : Elem) (c c' : γ) (e : VErr) (stop : Stop) :
    perform V here y ((deCollect C D).update c (infoOf here y)) = .ok ((c', .err e), stop) ↔
      C.refuse c y.name.expanded = some e ∧ c' = c ∧ stop = { path := here ++ [{ name := y.name, pos := y.pos }], pos := y.pos } ∨
      C.refuse c y.name.expanded = none ∧
        (deser V D here y = .ok (.error e, stop) ∧ c' = c ∨ ∃ w, deser V D here y = .ok (.ok w, stop) ∧ C.more c y.name.expanded w = (c', .err e)) := by
  simp only [deCollect, deser_perform]
  rw [show (infoOf here y).name.expanded = y.name.expanded from rfl]
  cases hr : C.refuse c y.name.expanded with
  | some e' => simp [perform, eq_comm, and_assoc, and_left_comm]
  | none =>
    simp only [perform_map]
    rcases perform V here y (D (infoOf here y)) with f | ⟨f | (e' | w), st⟩
    · simp [Except.map]
    · simp [Except.map, deserRet]
    · simp [Except.map, deserRet, and_comm, and_assoc, eq_comm]
    · simp only [Except.map, deserRet, Except.ok.injEq, Prod.mk.injEq, reduceCtorEq, false_and, false_or, true_and]
      constructor
      · rintro ⟨h, rfl⟩
        exact ⟨w, ⟨rfl, rfl⟩, h⟩
      · rintro ⟨w', ⟨rfl, rfl⟩, h⟩
        exact ⟨h, rfl⟩

theorem afterElems_keeps {C : Collector β γ} {P : γ → Prop} (hP : Keeps C P) (D : Deser σ β) (c : Option γ) (hc : ∀ v, c = some v → P v)
    (l : List (ElemInfo × Supply σ)) : ∀ v, afterElems (deCollect C D) c l = some v → P v := by
  induction l generalizing c with
  | nil => cases c <;> exact hc
  | cons a l ih =>
    obtain ⟨info, s⟩ := a
    cases c with
    | none =>
      simp only [afterElems]
      split
      · rename_i v hv
        refine ih (some v) fun v' h' => ?_
        cases h'
        have : ∀ a : Action σ (Except Fault (Except VErr β)), give s (a.map fun r =>
            match deserRet r with
            | .ok v => C.first info.name.expanded v
            | .err e => .err e
            | .panic => .panic) = .ok v → P v := by
          intro a ha
          have : ∀ r : Except Fault (Except VErr β), (match deserRet r with
            | .ok v => C.first info.name.expanded v
            | .err e => .err e
            | .panic => .panic) = .ok v → P v := by
            intro r hr
            split at hr
            · exact hP.first _ _ _ hr
            · cases hr
            · cases hr
          cases a with
          | done r => exact this _ ha
          | readString k => exact this _ ha
          | readTo sub k => exact this _ ha
        exact this _ hv
      · exact ih none fun _ h => by cases h
    | some c =>
      have hc := hc c rfl
      simp only [afterElems]
      refine ih _ fun v' h' => ?_
      cases h'
      simp only [deCollect]
      split
      · exact hc
      · have : ∀ r : Except Fault (Except VErr β), P ((match deserRet r with
            | .ok v => C.more c info.name.expanded v
            | .err e => (c, .err e)
            | .panic => (c, .panic) : γ × Ret VErr Unit)).1 := by
          intro r
          split
          · exact hP.more _ _ _ hc
          · exact hc
          · exact hc
        generalize D info = a
        cases a with
        | done r => exact this _
        | readString k => exact this _
        | readTo sub k => exact this _

end SX.Open
