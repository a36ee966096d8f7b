import Verif.Proof.AnyElement
import Verif.Spec.OpenRound

/- A type for flattened fields that holds everything that other fields do not take, as a witness for C92. -/
namespace SX.Any
open Spec Spec.Open SX.Open

variable {σ τ α : Type}

/-- Its visitor: it keeps all that it is offered. -/
def keeper (emb : St → σ) (proj : σ → Option St) : Raw σ St St where
  new := ([], .nil)
  attr t n v := .ok ((t.1 ++ [(n, v)], t.2), .ok none)
  characters t s _ := .ok ((t.1, t.2.append (.chars s .nil)), .ok none)
  element t info := .ok (.take (.readTo (emb ([], .nil)) fun sub r =>
    match r with
    | .error e => .ok (t, .err e)
    | .ok _ =>
      match proj sub with
      | none => .error .panic
      | some sub => .ok ((t.1, t.2.append (.elem info.name.expanded sub.1 sub.2 .nil)), .ok ())))
  finalize t _ := .ok (t, .ok ())
  out t := some t

/-- How it is written. -/
def restSer (v : St) : Ser := ⟨attrs ⟨"", ""⟩ v.1, forest v.2 .ret⟩

section
variable {V : Visitor σ} {emb : St → σ} {proj : σ → Option St} (hp : ∀ t, proj (emb t) = some t) (hV : Includes V (keeper emb proj) emb)
include hV

theorem keeper_attributes (here : List StackElem) (pos : Pos) (as : List XAttr) (v : St) :
    attributes V here pos as (emb v) = .ok (emb (v.1 ++ as.map (fun a => (a.name.expanded, a.value)), v.2), .ok ()) := by
  induction as generalizing v with
  | nil => simp [attributes]
  | cons a as ih =>
    simp only [attributes]
    rw [hV.attr]
    simp only [keeper, heardText]
    rw [ih]
    simp

include hp

theorem keeper_content (path : List StackElem) (F : Forest) (v : St) : content V path F (emb v) = .ok (emb (v.1, v.2.append F.whole), .ok ()) := by
  induction F generalizing path v with
  | nil => simp [content, Forest.whole, append_nil]
  | misc m pos rest ih => simp only [content, Forest.whole]; exact ih path v
  | chars s c pos rest ih =>
    simp only [content, Forest.whole]
    rw [hV.chars]
    simp only [keeper, heardText]
    rw [ih, append_assoc]
    rfl
  | elem name attrs ns pos children endPos rest ih1 ih2 =>
    simp only [content, Forest.whole]
    rw [hV.elem]
    simp only [keeper, heardElem, Action.map]
    rw [keeper_attributes hV]
    dsimp only
    rw [ih1]
    simp only [hp, heardRead]
    rw [ih2, append_assoc]
    rfl

theorem keeper_perform (path : List StackElem) (x : Elem) (t : St) (it : St → τ) :
    ∃ stop, perform V path x (Action.map (stateInto it) (.readTo (emb ([], .nil)) fun sub r =>
      match r with
      | .error e => .ok (t, .err e)
      | .ok _ =>
        match proj sub with
        | none => .error .panic
        | some sub => .ok ((t.1, t.2.append (.elem x.name.expanded sub.1 sub.2 .nil)), .ok ()))) =
      .ok (.ok (it (t.1, t.2.append (.elem x.name.expanded (x.attrs.map fun a => (a.name.expanded, a.value)) x.children.whole .nil)), .ok ()), stop) := by
  simp only [perform, Action.map]
  rw [keeper_attributes hV]
  dsimp only
  rw [keeper_content hp hV]
  simp only [hp, stateInto]
  exact ⟨_, rfl⟩

variable {it : St → τ} {gt : τ → Option St} (ht : ∀ t, gt (it t) = some t) (inj : St → α) (get : α → Option St) (fields : List (OField σ τ α))
include ht

omit hp hV in
theorem rest_attrs (as : List XAttr) (t : St) :
    flatAttrs fields as [((keeper emb proj).into it gt inj get, it t)] =
      some [((keeper emb proj).into it gt inj get, it (t.1 ++ leftAttrs (IsAttribute fields) as, t.2))] := by
  induction as generalizing t with
  | nil => simp [flatAttrs, leftAttrs]
  | cons a as ih =>
    simp only [flatAttrs, leftAttrs]
    split
    · exact ih t
    · have : offerAttr a.name.expanded a.value [((keeper emb proj).into it gt inj get, it t)] =
          some [((keeper emb proj).into it gt inj get, it (t.1 ++ [(a.name.expanded, a.value)], t.2))] := by
        simp only [offerAttr, Raw.into, ht, keeper, stateInto]
      rw [this]
      dsimp only
      rw [ih]
      simp

theorem rest_content (here : List StackElem) (F : Forest) (t : St) :
    flatContent V here fields F [((keeper emb proj).into it gt inj get, it t)] =
      some [((keeper emb proj).into it gt inj get, it (t.1, t.2.append (F.left (IsElement fields))))] := by
  induction F generalizing t with
  | nil => simp [flatContent, Forest.left, append_nil]
  | misc m pos rest ih => simp only [flatContent, Forest.left]; exact ih t
  | chars s c pos rest ih =>
    simp only [flatContent, Forest.left]
    have : offerChars pos s [((keeper emb proj).into it gt inj get, it t)] =
        some [((keeper emb proj).into it gt inj get, it (t.1, t.2.append (.chars s .nil)))] := by
      simp only [offerChars, Raw.into, ht, keeper, stateInto]
    rw [this]
    dsimp only
    rw [ih, append_assoc]
    rfl
  | elem name attrs ns pos children endPos rest ih1 ih2 =>
    simp only [flatContent, Forest.left]
    split
    · exact ih2 t
    · have : offerElem V here { name, attrs, ns, pos, children, endPos } [((keeper emb proj).into it gt inj get, it t)] =
          some [((keeper emb proj).into it gt inj get,
            it (t.1, t.2.append (.elem name.expanded (attrs.map fun a => (a.name.expanded, a.value)) children.whole .nil)))] := by
        obtain ⟨stop, h⟩ := keeper_perform hp hV here { name, attrs, ns, pos, children, endPos } t it
        simp only [offerElem, Raw.into, ht]
        have he : ∀ info, (keeper emb proj).element t info = .ok (.take (.readTo (emb ([], .nil)) fun sub r =>
            match r with
            | .error e => .ok (t, .err e)
            | .ok _ =>
              match proj sub with
              | none => .error .panic
              | some sub => .ok ((t.1, t.2.append (.elem info.name.expanded sub.1 sub.2 .nil)), .ok ()))) := fun _ => rfl
        rw [he]
        dsimp only [infoOf]
        rw [h]
      rw [this]
      dsimp only
      rw [ih2, append_assoc]
      rfl

end

theorem newFlats_plain (fs : List (OField σ τ α)) (h : ∀ f ∈ fs, ∀ raw, f.kind ≠ .flatten raw) (l : List (OField σ τ α)) :
    newFlats (fs ++ l) = newFlats l := by
  induction fs with
  | nil => rfl
  | cons f fs ih =>
    simp only [List.cons_append, newFlats]
    have := h f (by simp)
    split
    · rename_i raw hk
      exact absurd hk (this raw)
    · exact ih fun g hg => h g (by simp [hg])

theorem allGet_plain {V : Visitor σ} {here : List StackElem} {x : Elem} (fs : List (OField σ τ α)) (h : ∀ f ∈ fs, ∀ raw, f.kind ≠ .flatten raw)
    (l : List (OField σ τ α)) (flats : List (Raw σ τ α × τ)) (vs : List α) :
    AllGet V here x (fs ++ l) flats vs ↔ ∃ vs1 vs2, vs = vs1 ++ vs2 ∧ Rowwise (Gets V here x) fs vs1 ∧ AllGet V here x l flats vs2 := by
  induction fs generalizing vs with
  | nil =>
    constructor
    · intro h
      exact ⟨[], vs, rfl, .nil, h⟩
    · rintro ⟨vs1, vs2, rfl, h1, h2⟩
      cases h1
      exact h2
  | cons f fs ih =>
    have ih := ih fun g hg => h g (by simp [hg])
    constructor
    · intro ha
      cases ha with
      | plain hv ha =>
        obtain ⟨vs1, vs2, rfl, h1, h2⟩ := (ih _).mp ha
        exact ⟨_ :: vs1, vs2, rfl, .cons hv h1, h2⟩
      | flat hk hf hv ha => exact absurd hk (h f (by simp) _)
    · rintro ⟨vs1, vs2, rfl, h1, h2⟩
      cases h1 with
      | cons hv h1 => exact .plain hv ((ih _).mpr ⟨_, _, rfl, h1, h2⟩)

theorem left_nil (F : Forest) : F.left (IsElement ([] : List (OField σ τ α))) = F.whole := by
  have h : ∀ n, ¬ IsElement ([] : List (OField σ τ α)) n := fun n ⟨f, hf, _⟩ => by cases hf
  induction F with
  | nil => rfl
  | misc m pos rest ih => simp only [Forest.left, Forest.whole, ih]
  | chars s c pos rest ih => simp only [Forest.left, Forest.whole, ih]
  | elem name attrs ns pos children endPos rest ih1 ih2 => simp only [Forest.left, Forest.whole, h, if_false, ih2]

theorem leftAttrs_nil (as : List XAttr) :
    leftAttrs (IsAttribute ([] : List (OField σ τ α))) as = as.map fun a => (a.name.expanded, a.value) := by
  have h : ∀ n, ¬ IsAttribute ([] : List (OField σ τ α)) n := fun n ⟨f, hf, _⟩ => by cases hf
  induction as with
  | nil => rfl
  | cons a as ih => simp only [leftAttrs, h, if_false, ih, List.map_cons]

end SX.Any
