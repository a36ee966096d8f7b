import Verif.Spec.OpenWrapUnwind
import Verif.Spec.OpenUnwind
import Verif.Proof.OpenUnwindParts
import Verif.Proof.FailuresParts
import Verif.Proof.PanicAsParts

namespace SX.OpenUnwind
open SX.Open SX.UnwindDe

variable {σ β γ : Type}

section
open Spec.OpenUnwind
variable {κ : Type} {τ : κ → Type} {I : κ → States τ → Prop}

theorem wrap_same {make : β → Ret VErr γ} {D D' : PDeser (States τ) β} (h : ∀ i, Same I (fun _ => True) (D i) (D' i)) (i : ElemInfo) :
    Same I (fun _ => True) (wrap make D i) (wrap make D' i) := by
  have := h i
  unfold wrap
  revert this
  generalize D i = a
  generalize D' i = a'
  intro h
  cases a <;> cases a' <;> first | exact h.elim | skip
  · exact ⟨congrArg _ h.1, trivial⟩
  · exact fun x => ⟨congrArg _ (h x).1, trivial⟩
  · obtain ⟨rfl, kind, hs, hk⟩ := h
    exact ⟨rfl, kind, hs, fun s r hi => ⟨congrArg _ (hk s r hi).1, trivial⟩⟩

theorem collect_alike {C : Collector β γ} {D D' : PDeser (States τ) β} (h : ∀ i, Same I (fun _ => True) (D i) (D' i)) :
    AlikeImpl I (collect C D) (collect C D') where
  init i := alike_map (flag_alike (h i)) _
  update c i := by
    simp only [collect]
    split
    · exact rfl
    · exact alike_map (flag_alike (h i)) _
  missing := rfl
end

section
open Spec.Failures Spec.Open

theorem after_like {make make' : β → Ret VErr γ} (hm : ∀ v, Like (make v) (make' v)) {r r' : Ret VErr β} (h : Like r r') :
    Like (wrap.after make r) (wrap.after make' r') := by
  rcases r with v | e | _ <;> rcases r' with v' | e' | _ <;> cases h <;> first | exact hm _ | exact rfl

theorem wrap_like {make make' : β → Ret VErr γ} (hm : ∀ v, Like (make v) (make' v)) {D D' : PDeser σ β} (h : ∀ i, LikeP Like (D i) (D' i)) (i : ElemInfo) :
    LikeP Like (wrap make D i) (wrap make' D' i) := by
  have := h i
  unfold wrap
  revert this
  generalize D i = a
  generalize D' i = a'
  intro h
  cases a <;> cases a' <;> first | exact h.elim | skip
  · exact after_like hm h
  · exact fun x => after_like hm (h x)
  · exact ⟨h.1, fun s r r' hr => after_like hm (h.2 s r r' hr)⟩

theorem collect_like {C C' : Collector β γ} (hC : LikeCollectors C C') {D D' : PDeser σ β} (h : ∀ i, LikeP Like (D i) (D' i)) :
    LikeImpl (collect C D) (collect C' D') where
  init i := likeAct_map (flag_like (h i)) _ _ fun r r' hr => by
    rcases r with v | e | _ <;> rcases r' with v' | e' | _ <;> cases hr <;> first | exact hC.first _ _ | exact rfl
  update c i := by
    have hr := hC.refuse c i.name.expanded
    simp only [collect]
    cases h1 : C.refuse c i.name.expanded with
    | some e =>
      rw [h1] at hr
      cases h2 : C'.refuse c i.name.expanded with
      | some e' => exact ⟨rfl, rfl⟩
      | none => rw [h2] at hr; cases hr
    | none =>
      rw [h1] at hr
      cases h2 : C'.refuse c i.name.expanded with
      | some e' => rw [h2] at hr; cases hr
      | none =>
        exact likeAct_map (flag_like (h i)) _ _ fun r r' hr => by
          rcases r with v | e | _ <;> rcases r' with v' | e' | _ <;> cases hr <;> first | exact hC.more _ _ _ | exact ⟨rfl, rfl⟩
  missing n := hC.none n
end

section
open Spec.PanicAs Spec.Open
variable [Mark]

theorem after_sim {make make' : β → Ret VErr γ} (hm : ∀ v, Sim (make v) (make' v)) {r r' : Ret VErr β} (h : Sim r r') :
    Sim (wrap.after make r) (wrap.after make' r') := by
  cases h with
  | ok v => exact hm v
  | err e he => exact .err e he
  | panic e he => exact .panic e he

theorem wrap_sim {make make' : β → Ret VErr γ} (hm : ∀ v, Sim (make v) (make' v)) {D D' : PDeser σ β} (h : ∀ i, SimP Sim (D i) (D' i)) (i : ElemInfo) :
    SimP Sim (wrap make D i) (wrap make' D' i) := by
  have := h i
  unfold wrap
  revert this
  generalize D i = a
  generalize D' i = a'
  intro h
  cases a <;> cases a' <;> first | exact h.elim | skip
  · exact after_sim hm h
  · exact fun x hx => after_sim hm (h x hx)
  · exact ⟨h.1, fun s r r' hr => after_sim hm (h.2 s r r' hr)⟩

theorem collect_sim {C C' : Collector β γ} (hC : SimCollectors C C') {D D' : PDeser σ β} (h : ∀ i, SimP Sim (D i) (D' i)) :
    SimImpl (collect C D) (collect C' D') where
  init i := simAct_map (flag_sim (h i)) _ _ fun r r' hr => by
    cases hr with
    | ok v => exact hC.first _ v
    | err e he => exact .err e he
    | panic e he => exact .panic e he
  update c i := by
    obtain ⟨hr, he⟩ := hC.refuse c i.name.expanded
    simp only [collect, ← hr]
    cases h1 : C.refuse c i.name.expanded with
    | some e => exact ⟨rfl, .err e (he e h1)⟩
    | none =>
      exact simAct_map (flag_sim (h i)) _ _ fun r r' hr => by
        cases hr with
        | ok v => exact hC.more _ _ v
        | err e he => exact ⟨rfl, .err e he⟩
        | panic e he => exact ⟨rfl, .panic e he⟩
  missing n := hC.none n
end

end SX.OpenUnwind
