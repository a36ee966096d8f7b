import Verif.Spec.Documented
import Verif.Proof.Reorder
import Verif.Props.Reader
import Verif.Props.Macro

namespace SX
open Spec

/-! ### `read_to` and `read_string` return errors in the form `Propagate` -/

theorem visitAttrs_propagates {σ : Type} (V : Visitor σ) (stack : List StackElem) (pos : Pos) (l : List XAttr) (v v' : σ) (e : VErr)
    (h : visitAttrs V stack pos l v = .ok (v', .error e)) : ∃ E, e = .propagate E := by
  induction l generalizing v with
  | nil => cases h
  | cons a l ih =>
    unfold visitAttrs at h
    split at h
    · cases h
    · cases h; exact ⟨_, rfl⟩
    · exact ih _ h

theorem readLoop_propagates {σ : Type} (dbg : Bool) (V : Visitor σ) (fuel : Nat) (er : ElemReader) (v v' : σ) (s s' : RState) (e : VErr)
    (h : readLoop dbg V fuel er v s = .ok (v', .error e, s')) : ∃ E, e = .propagate E := by
  induction fuel generalizing er v s with
  | zero => cases h
  | succ fuel ih =>
    unfold readLoop at h
    split at h
    · cases h
    · split at h
      · cases h
      · cases h; exact ⟨_, rfl⟩
      · cases h
      · split at h
        · cases h
        · cases h; exact ⟨_, rfl⟩
        · exact ih _ _ _ h
      · simp only at h
        split at h
        · cases h
        · split at h
          · cases h
          · cases h
          · cases h; exact ⟨_, rfl⟩
          · split at h
            · cases h
            · cases h; exact ⟨_, rfl⟩
            · exact ih _ _ _ h

theorem readString_propagates (dbg : Bool) (er : ElemReader) (fuel : Nat) (out : String) (s s' : RState) (e : VErr)
    (h : readString dbg er fuel out s = .ok (.error e, s')) : ∃ E, e = .propagate E := by
  induction fuel generalizing out s with
  | zero => cases h
  | succ fuel ih =>
    unfold readString at h
    split at h
    · cases h
    · split at h
      · cases h
      · cases h; exact ⟨_, rfl⟩
      · split at h
        · cases h
        · cases h; exact ⟨_, rfl⟩
      · cases h
      · exact ih _ _ h

/-! ### Text between children -/

theorem remixed_rows {P : Elem → Elem → Prop} {x y : Elem}
    (names : x.children.children.map (·.name.expanded) = y.children.children.map (·.name.expanded))
    (items : ∀ (p : Nat) u v, x.children.children[p]? = some u → y.children.children[p]? = some v → P u v) :
    Rowwise (fun u v : Elem => u.name.expanded = v.name.expanded ∧ P u v) x.children.children y.children.children := by
  have hl : x.children.children.length = y.children.children.length := by simpa using congrArg List.length names
  apply rowwise_of_pointwise hl
  intro p u v hu hv
  refine ⟨?_, items p u v hu hv⟩
  have := congrArg (fun l => l[p]?) names
  simpa [hu, hv] using this

theorem rowwise_len {α β : Type} {R : α → β → Prop} {l : List α} {m : List β} (h : Rowwise R l m) : l.length = m.length := by
  induction h with
  | nil => rfl
  | cons _ _ ih => simp [ih]

theorem rowwise_at {α β : Type} {R : α → β → Prop} {l : List α} {m : List β} (h : Rowwise R l m) {p : Nat} {a : α} {b : β}
    (ha : l[p]? = some a) (hb : m[p]? = some b) : R a b := by
  rcases h.get p with ⟨h1, -⟩ | ⟨a', b', h1, h2, h3⟩
  · rw [h1] at ha; cases ha
  · rw [h1] at ha; rw [h2] at hb; cases ha; cases hb; exact h3

theorem remixed_same (env : Env) {x y : Elem} (h : Remixed x y) (ty : Ty) : SameContent env ty x y := by
  induction h generalizing ty with
  | @mk x y attrs text names items ih =>
    have rows := remixed_rows (P := fun u v => ∀ ty, SameContent env ty u v) names fun p u v hu hv ty => ih p u v hu hv ty
    have hn : ∀ n, Rowwise (fun u v : Elem => u.name.expanded = v.name.expanded ∧ ∀ ty, SameContent env ty u v)
        (x.children.childrenNamed n) (y.children.childrenNamed n) :=
      fun n => rowwise_filter (fun a b hab => by rw [hab.1]) rows
    cases ty with
    | text t =>
      by_cases hx : x.children.children = []
      · exact .text hx ((rowwise_nil_iff rows).mp hx) text
      · exact .notText hx fun hy => hx ((rowwise_nil_iff rows).mpr hy)
    | enm i =>
      exact .enm (fun w _ => sameCount_length (rowwise_len (hn _))) fun w s p u v _ _ hu hv => (rowwise_at (hn _) hu hv).2 _
    | strct i =>
      have hf : Rowwise (fun u v : Elem => u.name.expanded = v.name.expanded ∧ ∀ ty, SameContent env ty u v)
          (flatKids env (env.strct i).fields x) (flatKids env (env.strct i).fields y) :=
        rowwise_filter (fun a b hab => by rw [hab.1]) rows
      refine .several (fun f o t _ _ => attrs _) (fun f s _ _ => rowwise_len (hn _)) (fun f s p u v _ _ hu hv => (rowwise_at (hn _) hu hv).2 _) ?_
        fun e w s p u v _ _ _ hu hv _ => (rowwise_at hf hu hv).2 _
      exact rowwise_map hf (fun _ => True) (fun _ _ => trivial) fun a b hab _ => hab.1

end SX
