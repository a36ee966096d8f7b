import Verif.Proof.OpenRound
import Verif.Proof.OpenBlanket

/-
The implementations for `T`, `Option<T>`, `Vec<T>` and for texts read back what they wrote.
-/
namespace SX.Open
open Spec Spec.Open

variable {σ τ α β : Type}

theorem denotes_elem {n : EName} {as : List (EName × String)} {c rest : EForest} {F : Forest} (h : Denotes (.elem n as c rest) F) :
    ∃ x R, F.children = x :: R.children ∧ x.name.expanded = n ∧ IsWritten as c x ∧ Denotes rest R := by
  generalize hg : EForest.elem n as c rest = g at h
  induction h with
  | nil => cases hg
  | elem hn ha hc hr => cases hg; exact ⟨_, _, rfl, hn, ⟨ha, hc⟩, hr⟩
  | chars => cases hg
  | blank => cases hg
  | misc h ih => obtain ⟨x, R, h1, h2⟩ := ih hg; exact ⟨x, R, h1, h2⟩

theorem denotes_nil_children {F : Forest} (h : Denotes .nil F) : F.children = [] := by
  generalize hg : EForest.nil = g at h
  induction h with
  | nil => rfl
  | elem => cases hg
  | chars => cases hg
  | blank => cases hg
  | misc h ih => exact ih hg

theorem denotes_nil_text {F : Forest} (h : Denotes .nil F) : F.text = "" := by
  generalize hg : EForest.nil = g at h
  induction h with
  | nil => rfl
  | elem => cases hg
  | chars => cases hg
  | blank => cases hg
  | misc h ih => exact ih hg

theorem denotes_text {s : String} {F : Forest} (h : Denotes (.chars s .nil) F) : F.children = [] ∧ F.text = visible s := by
  generalize hg : EForest.chars s .nil = g at h
  induction h with
  | nil => cases hg
  | elem => cases hg
  | chars hs hr =>
    cases hg
    refine ⟨by rw [Forest.children]; exact denotes_nil_children hr, ?_⟩
    simp only [Forest.text, denotes_nil_text hr, visible, hs, if_false, String.append_empty]
  | blank hs hr =>
    cases hg
    exact ⟨denotes_nil_children hr, by rw [denotes_nil_text hr, visible, if_pos hs]⟩
  | misc h ih => exact ih hg

/-- One element, written for a value and read. -/
theorem one_back {V : Visitor σ} {D : Deser σ β} {name : EName} {w : Ser} {v : β} (h : ReadsAs V D name w v) :
    ∃ g, Prog.asks (fieldOne w name) [] = some (g.events, .ok ()) ∧ Only name g ∧
      ∀ here F, Denotes g F → ∃ x, F.children = [x] ∧ Spec.Open.Reads V D here x v := by
  obtain ⟨as, g, ha, hg, hr⟩ := h
  refine ⟨.elem name as g .nil, asks_fieldOne ha hg, ⟨rfl, trivial⟩, ?_⟩
  intro here F hF
  obtain ⟨x, R, h1, h2, h3, h4⟩ := denotes_elem hF
  exact ⟨x, by rw [h1, denotes_nil_children h4], hr here x h2 h3⟩

theorem vec_back {V : Visitor σ} {D : Deser σ β} {name : EName} {ws : List Ser} {vs : List β} (h : Rowwise (ReadsAs V D name) ws vs) :
    ∃ g, Prog.asks (fieldVec ws name) [] = some (g.events, .ok ()) ∧ Only name g ∧
      ∀ here F, Denotes g F → Rowwise (Spec.Open.Reads V D here) F.children vs := by
  induction h with
  | nil => exact ⟨.nil, rfl, trivial, fun here F hF => by rw [denotes_nil_children hF]; exact .nil⟩
  | cons h _ ih =>
    obtain ⟨as, g, ha, hg, hr⟩ := h
    obtain ⟨gs, h1, h2, h3⟩ := ih
    refine ⟨.elem name as g gs, ?_, ⟨rfl, h2⟩, ?_⟩
    · rw [fieldVec, asks_then (asks_fieldOne ha hg) h1]
      simp [EForest.events]
    · intro here F hF
      obtain ⟨x, R, k1, k2, k3, k4⟩ := denotes_elem hF
      rw [k1]
      exact .cons (hr here x k2 k3) (h3 here R k4)

theorem elementBack_one {V : Visitor σ} {D : Deser σ β} {inj : β → α} {get : α → Option β} (hg : ∀ b, get (inj b) = some b) {f : OField σ τ α}
    {w : Ser} {v : β} (h : ReadsAs V D f.name.expanded w v) :
    ElementBack V f ((deOne D).into inj get) (fieldOne w f.name.expanded) (inj v) := by
  obtain ⟨g, h1, h2, h3⟩ := one_back h
  refine ⟨g, h1, h2, fun here F hF => ?_⟩
  obtain ⟨x, hx, hr⟩ := h3 here F hF
  refine ⟨some (inj v), ?_, .inl rfl⟩
  rw [hx]
  have := fill_into V here (deOne D) inj get hg none [x]
  rw [Option.map_none] at this
  rw [this, (fill_one V D here [x] (some v)).mpr (.inr ⟨x, v, rfl, rfl, hr⟩)]
  rfl

theorem elementBack_opt {V : Visitor σ} {D : Deser σ β} {inj : Option β → α} {get : α → Option (Option β)} (hg : ∀ b, get (inj b) = some b)
    {f : OField σ τ α} {w : Option Ser} {v : Option β}
    (h : match w, v with
      | some w, some v => ReadsAs V D f.name.expanded w v
      | none, none => f.default = none ∧ f.kind = .element ((deOpt D).into inj get) ∨ f.default = some (.ok (inj none))
      | _, _ => False) :
    ElementBack V f ((deOpt D).into inj get) (fieldOpt w f.name.expanded) (inj v) := by
  match w, v, h with
  | some w, some v, h =>
    obtain ⟨g, h1, h2, h3⟩ := one_back h
    refine ⟨g, ?_, h2, fun here F hF => ?_⟩
    · have := asks_then h1 (q := .ret (.ok ())) (es' := []) (r := .ok ()) rfl
      rw [fieldOpt, this, List.append_nil]
    · obtain ⟨x, hx, hr⟩ := h3 here F hF
      refine ⟨some (inj (some v)), ?_, .inl rfl⟩
      rw [hx]
      have := fill_into V here (deOpt D) inj get hg none [x]
      rw [Option.map_none] at this
      rw [this, (fill_opt V D here [x] (some (some v))).mpr (.inr ⟨x, v, rfl, rfl, hr⟩)]
      rfl
  | none, none, h =>
    refine ⟨.nil, rfl, trivial, fun here F hF => ?_⟩
    rw [denotes_nil_children hF]
    refine ⟨none, rfl, .inr ⟨rfl, ?_⟩⟩
    unfold absent
    rcases h with ⟨h1, h2⟩ | h
    · rw [h1, h2]; rfl
    · rw [h]
  | some _, none, h => exact h.elim
  | none, some _, h => exact h.elim

theorem elementBack_vec {V : Visitor σ} {D : Deser σ β} {inj : List β → α} {get : α → Option (List β)} (hg : ∀ b, get (inj b) = some b)
    {f : OField σ τ α} {ws : List Ser} {vs : List β} (h : Rowwise (ReadsAs V D f.name.expanded) ws vs)
    (hd : vs = [] → f.default = none ∧ f.kind = .element ((deVec D).into inj get) ∨ f.default = some (.ok (inj []))) :
    ElementBack V f ((deVec D).into inj get) (fieldVec ws f.name.expanded) (inj vs) := by
  obtain ⟨g, h1, h2, h3⟩ := vec_back h
  refine ⟨g, h1, h2, fun here F hF => ?_⟩
  have hr := h3 here F hF
  by_cases hx : F.children = []
  · rw [hx] at hr
    cases hr
    refine ⟨none, by rw [hx]; rfl, .inr ⟨rfl, ?_⟩⟩
    unfold absent
    rcases hd rfl with ⟨h1, h2⟩ | h
    · rw [h1, h2]; rfl
    · rw [h]
  · refine ⟨some (inj vs), ?_, .inl rfl⟩
    have := fill_into V here (deVec D) inj get hg none F.children
    rw [Option.map_none] at this
    rw [this, (fill_vec V D here F.children (some vs)).mpr (.inr ⟨hx, vs, rfl, hr⟩)]
    rfl

theorem variantBack_one {V : Visitor σ} {D : Deser σ β} {inj : β → α} {get : α → Option β} (hg : ∀ b, get (inj b) = some b) {n : DName}
    {w : Ser} {v : β} (h : ReadsAs V D n.expanded w v) :
    VariantBack V ⟨n, some ((deOne D).into inj get)⟩ (.payload n (fieldOne w)) (some (inj v)) := by
  obtain ⟨g, h1, h2, h3⟩ := one_back h
  refine ⟨rfl, g, h1, h2, fun here F hF => ?_⟩
  obtain ⟨x, hx, hr⟩ := h3 here F hF
  rw [hx]
  have := fill_into V here (deOne D) inj get hg none [x]
  rw [Option.map_none] at this
  rw [this, (fill_one V D here [x] (some v)).mpr (.inr ⟨x, v, rfl, rfl, hr⟩)]
  rfl

theorem variantBack_opt {V : Visitor σ} {D : Deser σ β} {inj : Option β → α} {get : α → Option (Option β)} (hg : ∀ b, get (inj b) = some b)
    {n : DName} {w : Ser} {v : β} (h : ReadsAs V D n.expanded w v) :
    VariantBack V ⟨n, some ((deOpt D).into inj get)⟩ (.payload n (fieldOpt (some w))) (some (inj (some v))) := by
  obtain ⟨g, h1, h2, h3⟩ := one_back h
  refine ⟨rfl, g, ?_, h2, fun here F hF => ?_⟩
  · have := asks_then h1 (q := .ret (.ok ())) (es' := []) (r := .ok ()) rfl
    rw [fieldOpt, this, List.append_nil]
  · obtain ⟨x, hx, hr⟩ := h3 here F hF
    rw [hx]
    have := fill_into V here (deOpt D) inj get hg none [x]
    rw [Option.map_none] at this
    rw [this, (fill_opt V D here [x] (some (some v))).mpr (.inr ⟨x, v, rfl, rfl, hr⟩)]
    rfl

theorem variantBack_vec {V : Visitor σ} {D : Deser σ β} {inj : List β → α} {get : α → Option (List β)} (hg : ∀ b, get (inj b) = some b)
    {n : DName} {ws : List Ser} {vs : List β} (hne : vs ≠ []) (h : Rowwise (ReadsAs V D n.expanded) ws vs) :
    VariantBack V ⟨n, some ((deVec D).into inj get)⟩ (.payload n (fieldVec ws)) (some (inj vs)) := by
  obtain ⟨g, h1, h2, h3⟩ := vec_back h
  refine ⟨rfl, g, h1, h2, fun here F hF => ?_⟩
  have hr := h3 here F hF
  have hx : F.children ≠ [] := by
    intro hx
    rw [hx] at hr
    cases hr
    exact hne rfl
  have := fill_into V here (deVec D) inj get hg none F.children
  rw [Option.map_none] at this
  rw [this, (fill_vec V D here F.children (some vs)).mpr (.inr ⟨hx, vs, rfl, hr⟩)]
  rfl

theorem attributeBack_one {f : OField σ τ α} {parse : String → Ret DErr β} {inj : β → α} {s : String} {v : β} (h : parse s = .ok v) :
    AttributeBack f ((deAttr parse).into inj) (attrOne (.ok s) f.name.expanded) (inj v) := by
  refine ⟨some s, rfl, ?_⟩
  simp [AttrImpl.into, deAttr, h]

theorem attributeBack_opt {f : OField σ τ α} {parse : String → Ret DErr β} {inj : Option β → α} {s : Option String} {v : Option β}
    (h : match s, v with
      | some s, some v => parse s = .ok v
      | none, none => f.default = none ∧ f.kind = .attribute ((deAttrOpt parse).into inj) ∨ f.default = some (.ok (inj none))
      | _, _ => False) :
    AttributeBack f ((deAttrOpt parse).into inj) (attrOpt (s.map .ok) f.name.expanded) (inj v) := by
  match s, v, h with
  | some s, some v, h =>
    refine ⟨some s, rfl, ?_⟩
    simp [AttrImpl.into, deAttrOpt, h]
  | none, none, h =>
    refine ⟨none, rfl, ?_⟩
    simp only
    unfold absent
    rcases h with ⟨h1, h2⟩ | h
    · rw [h1, h2]; rfl
    · rw [h]
  | some _, none, h => exact h.elim
  | none, some _, h => exact h.elim

/-! ### Values and states of a type among all -/

/-- The same for the states of visitors. -/
def flatInto {τ' : Type} (raw' : Raw σ τ α) (it : τ' → τ) : List (Raw σ τ' β × τ') → List (Raw σ τ α × τ)
  | l => l.map fun x => (raw', it x.2)

theorem flatAttrs_into {τ' : Type} {raw : Raw σ τ' β} {it : τ' → τ} {gt : τ → Option τ'} (hgt : ∀ t, gt (it t) = some t) {inj : β → α} {get : α → Option β}
    (A : List XAttr) (t : τ') :
    (∀ l, flatAttrs ([] : List (OField σ τ' β)) A [(raw, t)] = some l → ∃ t', l = [(raw, t')] ∧
      flatAttrs ([] : List (OField σ τ α)) A [(raw.into it gt inj get, it t)] = some [(raw.into it gt inj get, it t')]) := by
  induction A generalizing t with
  | nil =>
    rw [flatAttrs]
    rintro l ⟨⟩
    exact ⟨t, rfl, by rw [flatAttrs]⟩
  | cons a A ih =>
    intro l
    rw [flatAttrs, if_neg (by rintro ⟨f, hf, -⟩; cases hf), flatAttrs, if_neg (by rintro ⟨f, hf, -⟩; cases hf)]
    simp only [offerAttr, Raw.into, hgt]
    rcases raw.attr t a.name.expanded a.value with f | ⟨t', (_ | s') | e | _⟩
    · rintro ⟨⟩
    · exact ih t' l
    · exact ih t' l
    · rintro ⟨⟩
    · rintro ⟨⟩

theorem flatContent_into {V : Visitor σ} {here : List StackElem} {τ' : Type} {raw : Raw σ τ' β} {it : τ' → τ} {gt : τ → Option τ'}
    (hgt : ∀ t, gt (it t) = some t) {inj : β → α} {get : α → Option β} (F : Forest) (t : τ') :
    (∀ l, flatContent V here ([] : List (OField σ τ' β)) F [(raw, t)] = some l → ∃ t', l = [(raw, t')] ∧
      flatContent V here ([] : List (OField σ τ α)) F [(raw.into it gt inj get, it t)] = some [(raw.into it gt inj get, it t')]) := by
  induction F generalizing t with
  | nil =>
    rw [flatContent]
    rintro l ⟨⟩
    exact ⟨t, rfl, by rw [flatContent]⟩
  | misc m pos rest ih => rw [flatContent, flatContent]; exact ih t
  | chars s cd pos rest ih =>
    intro l
    rw [flatContent, flatContent]
    simp only [offerChars, Raw.into, hgt]
    rcases raw.characters t s pos with f | ⟨t', (_ | s') | e | _⟩
    · rintro ⟨⟩
    · exact ih t' l
    · exact ih t' l
    · rintro ⟨⟩
    · rintro ⟨⟩
  | elem name attrs ns pos ch ep rest _ ih =>
    intro l
    rw [flatContent, if_neg (by rintro ⟨f, hf, -⟩; cases hf), flatContent, if_neg (by rintro ⟨f, hf, -⟩; cases hf)]
    simp only [offerElem, Raw.into, hgt]
    rcases raw.element t (infoOf here ⟨name, attrs, ns, pos, ch, ep⟩) with f | (t' | a)
    · rintro ⟨⟩
    · exact ih t' l
    · simp only [perform_map]
      rcases perform V here ⟨name, attrs, ns, pos, ch, ep⟩ a with f | ⟨f | ⟨t', u | e | _⟩, stop⟩
      · rintro ⟨⟩
      · rintro ⟨⟩
      · exact ih t' l
      · rintro ⟨⟩
      · rintro ⟨⟩

/-- A type that reads back what it wrote does so when its values and states are seen as some of all. -/
theorem flattened_into {V : Visitor σ} {P Q : EName → Prop} {τ' : Type} {raw : Raw σ τ' β} {it : τ' → τ} {gt : τ → Option τ'}
    (hgt : ∀ t, gt (it t) = some t) {inj : β → α} {get : α → Option β} {d : Option (Ret Empty α)} {d' : Option (Ret Empty β)}
    (hd : match d, d' with
      | none, none => True
      | some (.ok a), some (.ok b) => get a = some b
      | _, _ => False)
    {w : Ser} {v : β} (h : FlattenedBack V P Q raw d' w v) : FlattenedBack V P Q (raw.into it gt inj get) d w (inj v) := by
  obtain ⟨as, g, h1, h2, h3, h4, h5⟩ := h
  refine ⟨as, g, h1, h2, h3, h4, fun path e A F hA hF => ?_⟩
  obtain ⟨t, t', t'', k1, k2, k3, k4⟩ := h5 path e A F hA hF
  obtain ⟨u, hu, hu'⟩ := flatAttrs_into (α := α) hgt (inj := inj) (get := get) A raw.new _ k1
  cases hu
  obtain ⟨u', hu2, hu2'⟩ := flatContent_into (α := α) hgt (inj := inj) (get := get) F t _ k2
  cases hu2
  refine ⟨_, _, it t'', hu', hu2', ?_, ?_⟩
  · simp only [Raw.into, hgt]
    match d, d', hd with
    | none, none, _ =>
      rw [Option.map_none, k3]
      rfl
    | some (.ok a), some (.ok b), h =>
      simp only [Option.map_some, h]
      rw [k3]
      rfl
  · simp only [Raw.into, hgt, Option.bind_some, k4, Option.map_some]

end SX.Open
