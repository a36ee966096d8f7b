import Verif.Proof.Evolve
import Verif.Props.OpenRound
import Verif.Props.OpenDeclared

/-
C82: types can be changed without losing the documents there are: fields that need not be there can be added, fields can be removed and reordered,
`T` can become `Option<T>` or `Vec<T>`, variants can be added.
-/
namespace SX
open Spec Open Spec.Open

variable {σ σ' τ τ' α α' β β' : Type}

/-! ## C82 -/

/-- C82: a field that was not there before, of a document that has nothing for it, gets what stands for an absent value. -/
theorem C82_fresh (V : Visitor σ) (f : OField σ τ α) (here : List StackElem) (x : Elem) (h : NotThere f x) (v : α) :
    Gets V here x f v ↔ absent f = .ok v := by
  unfold NotThere at h
  unfold Gets
  cases hk : f.kind with
  | element impl =>
    rw [hk] at h
    simp only at h ⊢
    rw [h]
    simp [fill, eq_comm]
  | «attribute» impl =>
    rw [hk] at h
    simp only at h ⊢
    rw [List.filter_eq_nil_iff.mpr fun a ha => by simpa using h a ha]
    simp [fillAttr, eq_comm]
  | flatten raw => rw [hk] at h; exact h.elim

/-- C82: which fields can be absent: those with a default (that does not panic), and those of type `Option<T>` and `Vec<T>`. -/
theorem C82_absent (D : Deser σ β) (c : Multi) (inj : c.Ty β → α) (get : α → Option (c.Ty β)) (nm : DName) :
    (∀ d, absent (⟨nm, .element ((c.impl D).into inj get), some (.ok d)⟩ : OField σ τ α) = .ok d) ∧
    (∀ v, absent (⟨nm, .element ((c.impl D).into inj get), none⟩ : OField σ τ α) = .ok v ↔ ∃ w, c ≠ .one ∧ c.values w = [] ∧ v = inj w) := by
  refine ⟨fun _ => rfl, fun v => ?_⟩
  cases c with
  | one =>
    constructor
    · intro h; cases h
    · rintro ⟨_, h, -⟩; exact absurd rfl h
  | opt =>
    constructor
    · intro h; cases h; exact ⟨none, by simp, rfl, rfl⟩
    · rintro ⟨w, -, h, rfl⟩
      cases w with
      | none => rfl
      | some w => cases h
  | vec =>
    constructor
    · intro h; cases h; exact ⟨[], by simp, rfl, rfl⟩
    · rintro ⟨w, -, h, rfl⟩
      subst h
      rfl

/-- C82: an element field that keeps its name may change from `T` or `Option<T>` to any of `T`, `Option<T>` and `Vec<T>`, and `T` may change to a type
that reads all that `T` reads, if the new field can be absent whenever the old one can.  What there was for the field is still read. -/
theorem C82_element (V : Visitor σ) (V' : Visitor σ') (D : Deser σ β) (D' : Deser σ' β') (c c' : Multi) (hw : c.Wider c')
    (inj : c.Ty β → α) (get : α → Option (c.Ty β)) (hg : ∀ b, get (inj b) = some b)
    (inj' : c'.Ty β' → α') (get' : α' → Option (c'.Ty β')) (hg' : ∀ b, get' (inj' b) = some b)
    (nm nm' : DName) (hn : nm'.expanded = nm.expanded) (df : Option (Ret Empty α)) (df' : Option (Ret Empty α'))
    (hA : ∀ v, absent (⟨nm, .element ((c.impl D).into inj get), df⟩ : OField σ τ α) = .ok v →
      ∃ v', absent (⟨nm', .element ((c'.impl D').into inj' get'), df'⟩ : OField σ' τ' α') = .ok v')
    (ok okc : Elem → Prop) (hok : ∀ x, ok x → ∀ y ∈ x.children.childrenNamed nm.expanded, okc y)
    (R : β → β' → Prop) (hD : Upgrades V D V' D' okc R) :
    FieldUpgrades V (⟨nm, .element ((c.impl D).into inj get), df⟩ : OField σ τ α) V' (⟨nm', .element ((c'.impl D').into inj' get'), df'⟩ : OField σ' τ' α') ok
      fun v v' => (∃ w w', v = inj w ∧ v' = inj' w' ∧ Rowwise R (c.values w) (c'.values w')) ∨
        absent (⟨nm, .element ((c.impl D).into inj get), df⟩ : OField σ τ α) = .ok v ∧
        absent (⟨nm', .element ((c'.impl D').into inj' get'), df'⟩ : OField σ' τ' α') = .ok v' := by
  intro here x v hx h
  rcases (gets_card hg).mp h with ⟨he, ha⟩ | ⟨hne, w, rfl, hr⟩
  · obtain ⟨v', hv'⟩ := hA v ha
    exact ⟨v', (gets_card hg').mpr (.inl ⟨by rw [hn]; exact he, hv'⟩), .inr ⟨ha, hv'⟩⟩
  · obtain ⟨l', hl', hrl⟩ := rowwise_upgrade (A' := Spec.Open.Reads V' D' here) (fun y v hy hv => hD here y v hy hv) (hok x hx) hr
    have hne' : l' ≠ [] := by
      rintro rfl
      exact hne (List.length_eq_zero_iff.mp ((rowwise_getElem hl').1))
    obtain ⟨w', rfl⟩ := card_widen hw hrl hne'
    exact ⟨inj' w', (gets_card hg').mpr (.inr ⟨by rw [hn]; exact hne, w', rfl, by rw [hn]; exact hl'⟩), .inl ⟨w, w', rfl, rfl, hrl⟩⟩

/-- C82: an attribute field that keeps its name may change to any type that takes all the values the old one takes. -/
theorem C82_attribute (V : Visitor σ) (V' : Visitor σ') (impl : AttrImpl α) (impl' : AttrImpl α') (nm nm' : DName) (hn : nm'.expanded = nm.expanded)
    (df : Option (Ret Empty α)) (df' : Option (Ret Empty α'))
    (hA : ∀ v, absent (⟨nm, .attribute impl, df⟩ : OField σ τ α) = .ok v → ∃ v', absent (⟨nm', .attribute impl', df'⟩ : OField σ' τ' α') = .ok v')
    (ok : Elem → Prop) (R : α → α' → Prop) (hI : ∀ s w, impl.init s = .ok w → ∃ w', impl'.init s = .ok w' ∧ R w w') :
    FieldUpgrades V (⟨nm, .attribute impl, df⟩ : OField σ τ α) V' (⟨nm', .attribute impl', df'⟩ : OField σ' τ' α') ok
      fun v v' => R v v' ∨
        absent (⟨nm, .attribute impl, df⟩ : OField σ τ α) = .ok v ∧ absent (⟨nm', .attribute impl', df'⟩ : OField σ' τ' α') = .ok v' := by
  rintro here x v - ⟨c, hc, h⟩
  unfold Gets
  simp only [hn] at hc ⊢
  revert hc
  generalize x.attrs.filter (fun a => a.name.expanded == nm.expanded) = as
  match as with
  | [] =>
    intro hc
    cases hc
    rcases h with h | ⟨-, h⟩
    · cases h
    · obtain ⟨v', hv'⟩ := hA v h
      exact ⟨v', ⟨none, rfl, .inr ⟨rfl, hv'⟩⟩, .inr ⟨h, hv'⟩⟩
  | [a] =>
    simp only [fillAttr]
    cases hi : impl.init a.value with
    | ok w =>
      intro hc
      cases hc
      rcases h with h | ⟨h, -⟩
      · cases h
        obtain ⟨w', hw', hr⟩ := hI _ _ hi
        exact ⟨w', ⟨some w', by rw [hw'], .inl rfl⟩, .inl hr⟩
      · cases h
    | err e => intro hc; cases hc
    | panic => intro hc; cases hc
  | _ :: _ :: _ => intro hc; cases hc

/-- C82: a struct reads all that its old version reads, if each of its fields takes what an old field takes, or is new and can be absent where it is.
Old fields may be left out: what is there for them is ignored.  The order does not matter. -/
theorem C82_struct (V : Visitor σ) (V' : Visitor σ') (fields : List (OField σ τ α)) (fields' : List (OField σ' τ' α'))
    (hD : Distinct fields) (hD' : Distinct fields') (hF : NoFlatten fields) (hF' : NoFlatten fields')
    (emb : List (OCell τ α) → σ) (proj : σ → Option (List (OCell τ α))) (hV : Includes V (structRaw fields) emb) (hp : ∀ t, proj (emb t) = some t)
    (emb' : List (OCell τ' α') → σ') (proj' : σ' → Option (List (OCell τ' α'))) (hV' : Includes V' (structRaw fields') emb')
    (hp' : ∀ t, proj' (emb' t) = some t)
    (ok : Elem → Prop) (src : Nat → Option Nat) (R : Nat → α → α' → Prop)
    (hkept : ∀ j f' i, fields'[j]? = some f' → src j = some i → ∃ f, fields[i]? = some f ∧ FieldUpgrades V f V' f' ok (R j))
    (hfresh : ∀ j f', fields'[j]? = some f' → src j = none → ∀ x, ok x → NotThere f' x ∧ ∃ v', absent f' = .ok v') :
    Upgrades V (deserVia (structRaw fields) emb proj) V' (deserVia (structRaw fields') emb' proj') ok fun vs vs' =>
      vs'.length = fields'.length ∧ Corresponds src R vs vs' ∧
        ∀ j f' v', fields'[j]? = some f' → src j = none → vs'[j]? = some v' → absent f' = .ok v' := by
  intro path x vs hx h
  have hold := (structRead_plain hF).mp (((C76_nested V path x).1 fields emb proj vs hD hV hp).mp h)
  obtain ⟨hlen, hold⟩ := rowwise_getElem hold
  obtain ⟨vs', hr, hq⟩ := rowwise_collect (R := Gets V' (path ++ [{ name := x.name, pos := x.pos }]) x)
    (Q := fun j v' => (∀ i, src j = some i → ∃ v, vs[i]? = some v ∧ R j v v') ∧
      ∀ f', fields'[j]? = some f' → src j = none → absent f' = .ok v') (l := fields') 0 (fun j f' hj => by
        rw [Nat.zero_add]
        cases hs : src j with
        | none =>
          obtain ⟨hn, v', hv'⟩ := hfresh j f' hj hs x hx
          refine ⟨v', (C82_fresh V' f' _ x hn v').mpr hv', ?_, ?_⟩
          · simp
          · intro g hg _
            rw [hj] at hg
            cases hg
            exact hv'
        | some i =>
          obtain ⟨f, hf, hu⟩ := hkept j f' i hj hs
          have hi : i < vs.length := by
            rw [← hlen]
            exact (List.getElem?_eq_some_iff.mp hf).1
          obtain ⟨v', hv', hR⟩ := hu _ x vs[i] hx (hold i f vs[i] hf (List.getElem?_eq_getElem hi))
          refine ⟨v', hv', ?_, ?_⟩
          · intro k hk
            cases hk
            exact ⟨vs[i], List.getElem?_eq_getElem hi, hR⟩
          · intro _ _ h; cases h)
  refine ⟨vs', ((C76_nested V' path x).1 fields' emb' proj' vs' hD' hV' hp').mpr ((structRead_plain hF').mpr hr), (rowwise_getElem hr).1.symm, ?_, ?_⟩
  · intro i j hs v' hv'
    simpa using (hq j v' hv').1 i (by rw [Nat.zero_add]; exact hs)
  · intro j f' v' hf hs hv'
    exact (hq j v' hv').2 f' (by rw [Nat.zero_add]; exact hf) (by rw [Nat.zero_add]; exact hs)

/-- C82: with flattened fields too: a field (`f`) that is added anywhere, for which there is nothing in an element, makes no difference to the other
fields, and has the value of an absent one; if it cannot be absent, such elements are not read anymore. -/
theorem C82_added (V : Visitor σ) (l r : List (OField σ τ α)) (f : OField σ τ α) (hD : Distinct (l ++ r)) (hD' : Distinct (l ++ f :: r))
    (emb emb' : List (OCell τ α) → σ) (proj proj' : σ → Option (List (OCell τ α)))
    (hV : Includes V (structRaw (l ++ r)) emb) (hp : ∀ t, proj (emb t) = some t)
    (hV' : Includes V (structRaw (l ++ f :: r)) emb') (hp' : ∀ t, proj' (emb' t) = some t)
    (path : List StackElem) (x : Elem) (hx : NotThere f x) (a b : List α) (ha : a.length = l.length) (v : α) :
    Spec.Open.Reads V (deserVia (structRaw (l ++ f :: r)) emb' proj') path x (a ++ v :: b) ↔
      Spec.Open.Reads V (deserVia (structRaw (l ++ r)) emb proj) path x (a ++ b) ∧ absent f = .ok v := by
  rw [(C76_nested V path x).1 _ emb' proj' _ hD' hV' hp', (C76_nested V path x).1 _ emb proj _ hD hV hp, structRead_insert hx ha, C82_fresh V f _ x hx]

/-- C82: what an enum's payload of type `T`, `Option<T>` or `Vec<T>` takes. -/
theorem C82_payload (V : Visitor σ) (V' : Visitor σ') (D : Deser σ β) (D' : Deser σ' β') (c c' : Multi) (hw : c.Wider c')
    (inj : c.Ty β → α) (get : α → Option (c.Ty β)) (hg : ∀ b, get (inj b) = some b)
    (inj' : c'.Ty β' → α') (get' : α' → Option (c'.Ty β')) (hg' : ∀ b, get' (inj' b) = some b) (n : EName)
    (ok okc : Elem → Prop) (hok : ∀ x, ok x → ∀ y ∈ x.children.childrenNamed n, okc y) (R : β → β' → Prop) (hD : Upgrades V D V' D' okc R)
    (here : List StackElem) (x : Elem) (p : α) (hx : ok x) (h : fill V here ((c.impl D).into inj get) none (x.children.childrenNamed n) = some (some p)) :
    ∃ p', fill V' here ((c'.impl D').into inj' get') none (x.children.childrenNamed n) = some (some p') ∧
      ∃ w w', p = inj w ∧ p' = inj' w' ∧ Rowwise R (c.values w) (c'.values w') := by
  have h1 : Gets V here x (⟨⟨some n.ns, n.loc⟩, .element ((c.impl D).into inj get), some .panic⟩ : OField σ Unit α) p := ⟨some p, h, .inl rfl⟩
  obtain ⟨p', ⟨c0, hc, hp'⟩, hr⟩ := C82_element (τ := Unit) (τ' := Unit) V V' D D' c c' hw inj get hg inj' get' hg' ⟨some n.ns, n.loc⟩ ⟨some n.ns, n.loc⟩ rfl
    (some .panic) (some .panic) (fun _ h => nomatch h) ok okc hok R hD here x p hx h1
  rcases hp' with rfl | ⟨-, hp'⟩
  · refine ⟨p', hc, ?_⟩
    rcases hr with hr | ⟨hr, -⟩
    · exact hr
    · cases hr
  · cases hp'

/-- C82: an enum reads all that its old version reads, from elements without children for new variants, if each old variant has a variant of the same
name (`tgt`) whose payload takes what the old one takes. -/
theorem C82_enum (V : Visitor σ) (V' : Visitor σ') (ident ident' : String) (vs : List (OVariant σ α)) (vs' : List (OVariant σ' α'))
    (hs : Searchable vs) (hs' : Searchable vs')
    (emb : OEnum α → σ) (proj : σ → Option (OEnum α)) (hV : Includes V (enumRaw ident vs) emb) (hp : ∀ t, proj (emb t) = some t)
    (emb' : OEnum α' → σ') (proj' : σ' → Option (OEnum α')) (hV' : Includes V' (enumRaw ident' vs') emb') (hp' : ∀ t, proj' (emb' t) = some t)
    (ok : Elem → Prop) (tgt : Nat → Nat) (R : Nat → α → α' → Prop)
    (hkept : ∀ i v, vs[i]? = some v → ∃ v', vs'[tgt i]? = some v' ∧ v'.name.expanded = v.name.expanded ∧
      match v.payload, v'.payload with
      | none, none => True
      | some impl, some impl' => ∀ here x p, ok x → fill V here impl none (x.children.childrenNamed v.name.expanded) = some (some p) →
          ∃ p', fill V' here impl' none (x.children.childrenNamed v.name.expanded) = some (some p') ∧ R i p p'
      | _, _ => False)
    (hfresh : ∀ v' ∈ vs', (∃ v ∈ vs, v.name.expanded = v'.name.expanded) ∨ ∀ x, ok x → x.children.childrenNamed v'.name.expanded = []) :
    Upgrades V (deserVia (enumRaw ident vs) emb proj) V' (deserVia (enumRaw ident' vs') emb' proj') ok fun r r' =>
      r'.1 = tgt r.1 ∧ (r.2 = none ∧ r'.2 = none ∨ ∃ p p', r.2 = some p ∧ r'.2 = some p' ∧ R r.1 p p') := by
  intro path x r hx h
  obtain ⟨v, hv, hne, honly, hpay⟩ := ((C76_nested (τ := Unit) V path x).2 ident vs emb proj r hs hV hp).mp h
  obtain ⟨v', hv', hn, hpay'⟩ := hkept r.1 v hv
  have honly' : ∀ w ∈ vs', x.children.childrenNamed w.name.expanded ≠ [] → w.name.expanded = v'.name.expanded := by
    intro w hw hwne
    rcases hfresh w hw with ⟨u, hu, hun⟩ | hf
    · rw [hn, ← hun]
      exact honly u hu (by rw [hun]; exact hwne)
    · exact absurd (hf x hx) hwne
  have hnew := fun r' => ((C76_nested (τ := Unit) V' path x).2 ident' vs' emb' proj' r' hs' hV' hp').mpr
  cases hp1 : v.payload with
  | none =>
    cases hp2 : v'.payload with
    | none =>
      rw [hp1] at hpay
      refine ⟨(tgt r.1, none), hnew _ ⟨v', hv', by rw [hn]; exact hne, honly', by rw [hp2]⟩, rfl, .inl ⟨hpay, rfl⟩⟩
    | some _ => rw [hp1, hp2] at hpay'; exact hpay'.elim
  | some impl =>
    cases hp2 : v'.payload with
    | none => rw [hp1, hp2] at hpay'; exact hpay'.elim
    | some impl' =>
      rw [hp1] at hpay
      rw [hp1, hp2] at hpay'
      obtain ⟨p, hrp, hf⟩ := hpay
      obtain ⟨p', hf', hR⟩ := hpay' _ x p hx hf
      refine ⟨(tgt r.1, some p'), hnew _ ⟨v', hv', by rw [hn]; exact hne, honly', ?_⟩, rfl, .inr ⟨p, p', hrp, rfl, hR⟩⟩
      rw [hp2]
      exact ⟨p', rfl, by rw [hn]; exact hf'⟩

/-- C82: types that refer to each other: if each of them reads what its old version reads from elements of a size, given that all of them do from
smaller ones, then all of them do. -/
theorem C82_recursive {κ : Type} {B B' : κ → Type} (V : Visitor σ) (V' : Visitor σ') (D : (k : κ) → Deser σ (B k)) (D' : (k : κ) → Deser σ' (B' k))
    (ok : κ → Elem → Prop) (R : (k : κ) → B k → B' k → Prop)
    (step : ∀ n, (∀ k, Upgrades V (D k) V' (D' k) (fun x => ok k x ∧ elementsIn x.children < n) (R k)) →
      ∀ k, Upgrades V (D k) V' (D' k) (fun x => ok k x ∧ elementsIn x.children = n) (R k)) (k : κ) :
    Upgrades V (D k) V' (D' k) (ok k) (R k) := by
  have h : ∀ n, ∀ k, Upgrades V (D k) V' (D' k) (fun x => ok k x ∧ elementsIn x.children < n) (R k) := by
    intro n
    induction n with
    | zero => rintro k path x v ⟨-, h⟩; exact absurd h (Nat.not_lt_zero _)
    | succ n ih =>
      rintro k path x v ⟨hx, hn⟩ h
      by_cases he : elementsIn x.children = n
      · exact step n ih k path x v ⟨hx, he⟩ h
      · exact ih k path x v ⟨hx, by omega⟩ h
  intro path x v hx hr
  exact h (elementsIn x.children + 1) k path x v ⟨hx, by omega⟩ hr

/-- Children are smaller. -/
theorem C82_children (x y : Elem) (n : EName) (h : y ∈ x.children.childrenNamed n) : elementsIn y.children < elementsIn x.children :=
  child_smaller (List.mem_filter.mp h).1

/-- C82: then the new program reads all the documents the old one reads. -/
theorem C82_read (dbg dbg' : Bool) (V : Visitor σ) (V' : Visitor σ') (D : Deser σ β) (D' : Deser σ' β')
    (hd : dbg = false ∨ NoSwallow V ∧ DeserNoSwallow D) (hd' : dbg' = false ∨ NoSwallow V' ∧ DeserNoSwallow D') (ok : Elem → Prop)
    (R : β → β' → Prop) (h : Upgrades V D V' D' ok R) (d : Doc) (hok : ok d.root) (v : β) (hr : read dbg V D d.input = .ok (.ok v)) :
    ∃ v', read dbg' V' D' d.input = .ok (.ok v') ∧ R v v' := by
  have hread : ∀ {σ β : Type} (dbg : Bool) (V : Visitor σ) (D : Deser σ β) (_ : dbg = false ∨ NoSwallow V ∧ DeserNoSwallow D) (v : β),
      read dbg V D d.input = .ok (.ok v) ↔ Spec.Open.Reads V D [] d.root v := by
    intro σ β dbg V D hd v
    have : read dbg V D d.input = readDoc V D d := by
      rcases hd with rfl | ⟨hN, hN'⟩
      · exact C10_reader_in_sync _ _ _
      · cases dbg with
        | false => exact C10_reader_in_sync _ _ _
        | true => exact C10_reader_in_sync_debug _ _ hN hN' _
    rw [this, readDoc_ok]
    rfl
  obtain ⟨v', hv', hR⟩ := h [] d.root v hok ((hread dbg V D hd v).mp hr)
  exact ⟨v', (hread dbg' V' D' hd' v').mpr hv', hR⟩

/-- C82: what the old program writes, the new one reads. -/
theorem C82_written (dbg dbg' : Bool) (V : Visitor σ) (V' : Visitor σ') (D : Deser σ β) (D' : Deser σ' β') (hd' : dbg' = false ∨ NoSwallow V' ∧ DeserNoSwallow D')
    (ok : Elem → Prop) (R : β → β' → Prop) (h : Upgrades V D V' D' ok R) (sink : Sink) (hsink : ∀ out e, sink out e = none) (name : EName) (w : Ser) (v : β)
    (hw : ReadsAs V D name w v) (hdecl : DocumentDeclared name w.attrs w.children) (hf : NoForget w.children) :
    ∃ s, serializeTo dbg sink name w.attrs w.children = .ok (s, .ok ()) ∧ (∃ d, Transported s.out d) ∧
      ∀ d, Transported s.out d → ok d.root → ∃ v', read dbg' V' D' d.input = .ok (.ok v') ∧ R v v' := by
  obtain ⟨s, hs, hd, hr⟩ := C77_document dbg false V D (.inl rfl) sink hsink name w v hw hdecl hf
  exact ⟨s, hs, hd, fun d ht hok => C82_read false dbg' V V' D D' (.inl rfl) hd' ok R h d hok v (hr d ht)⟩

/-! ### An example: a recursive type gets a new attribute, several children instead of one, and a name that need not be there -/

namespace ExV
open SX.Ex (q p)

/-- The visitors of a program with one type. -/
def only {τ α : Type} (raw : Raw τ τ α) : Visitor τ where
  onAttr t n v := heardText id (raw.attr t n v)
  onChars t v pos := heardText id (raw.characters t v pos)
  onElem t info := heardElem id (raw.element t info)

theorem only_includes {τ α : Type} (raw : Raw τ τ α) : Includes (only raw) raw id := ⟨fun _ _ _ => rfl, fun _ _ _ => rfl, fun _ _ => rfl⟩

/-- The function `deserialize` refers to the type only by `new`, `finalize` and what is left in the end. -/
theorem via_congr {σ τ α : Type} {raw raw' : Raw σ τ α} {emb : τ → σ} {proj : σ → Option τ} (h1 : raw.new = raw'.new) (h2 : raw.finalize = raw'.finalize)
    (h3 : raw.out = raw'.out) : deserVia raw emb proj = deserVia raw' emb proj := by
  unfold deserVia finishRaw
  rw [h1, h2, h3]

theorem reads_of_eq {σ β : Type} {V : Visitor σ} {D D' : Deser σ β} (h : D = D') {path : List StackElem} {x : Elem} {v : β}
    (hr : Spec.Open.Reads V D' path x v) : Spec.Open.Reads V D path x v := h ▸ hr

/-- Values of the old program. -/
inductive V1 where
  | name (s : String)
  | kid (o : Option (List V1))

def getKid : V1 → Option (Option (List V1))
  | .kid o => some o
  | _ => none

abbrev S1 := List (OCell Unit V1)

def fields1 (D : Deser (List (OCell Unit V1)) (List V1)) : List (OField S1 Unit V1) :=
  [⟨⟨none, "n"⟩, .attribute ((deAttr fun s => .ok s).into .name), none⟩,
   ⟨⟨none, "kid"⟩, .element (((Multi.opt).impl D).into .kid getKid), none⟩]

/-- `finalize` and `out` call none of the implementations that read. -/
def D1 : Deser S1 (List V1) := deserVia (structRaw (fields1 fun _ => .done (.error .panic))) id some

theorem D1_eq : D1 = deserVia (structRaw (fields1 D1)) id some :=
  via_congr rfl (by
    funext cs _
    rcases cs with _ | ⟨_ | _, _ | ⟨_ | _, _⟩⟩ <;> rfl) (by
    funext cs
    rcases cs with _ | ⟨_ | _, _ | ⟨_ | _, _⟩⟩ <;> rfl)

/-- Values of the new program. -/
inductive V2 where
  | kids (l : List (List V2))
  | weight (o : Option Nat)
  | name (o : Option String)

def getKids : V2 → Option (List (List V2))
  | .kids l => some l
  | _ => none

abbrev S2 := List (OCell Unit V2)

def fields2 (D : Deser S2 (List V2)) : List (OField S2 Unit V2) :=
  [⟨⟨none, "kid"⟩, .element (((Multi.vec).impl D).into .kids getKids), none⟩,
   ⟨⟨none, "w"⟩, .attribute ((deAttrOpt fun s => .ok s.length).into .weight), none⟩,
   ⟨⟨none, "n"⟩, .attribute ((deAttrOpt fun s => .ok s).into .name), none⟩]

def D2 : Deser S2 (List V2) := deserVia (structRaw (fields2 fun _ => .done (.error .panic))) id some

theorem D2_eq : D2 = deserVia (structRaw (fields2 D2)) id some :=
  via_congr rfl (by
    funext cs _
    rcases cs with _ | ⟨_ | _, _ | ⟨_ | _, _ | ⟨_ | _, _⟩⟩⟩ <;> rfl) (by
    funext cs
    rcases cs with _ | ⟨_ | _, _ | ⟨_ | _, _ | ⟨_ | _, _⟩⟩⟩ <;> rfl)

theorem distinct1 (D : Deser S1 (List V1)) : Distinct (fields1 D) := by
  intro p q f g hp hq hn hk
  match p, q with
  | 0, 0 => rfl
  | 1, 1 => rfl
  | 0, 1 | 1, 0 =>
    simp only [fields1, List.getElem?_cons_zero, List.getElem?_cons_succ, Option.some.injEq] at hp hq
    subst hp hq
    simp [DName.expanded] at hn
  | p + 2, _ => simp [fields1] at hp
  | _, q + 2 => simp [fields1] at hq

theorem distinct2 (D : Deser S2 (List V2)) : Distinct (fields2 D) := by
  intro p q f g hp hq hn hk
  match p, q with
  | 0, 0 => rfl
  | 1, 1 => rfl
  | 2, 2 => rfl
  | 0, 1 | 1, 0 | 0, 2 | 2, 0 | 1, 2 | 2, 1 =>
    simp only [fields2, List.getElem?_cons_zero, List.getElem?_cons_succ, Option.some.injEq] at hp hq
    subst hp hq
    simp [DName.expanded] at hn
  | p + 3, _ => simp [fields2] at hp
  | _, q + 3 => simp [fields2] at hq

theorem plain1 (D : Deser S1 (List V1)) : NoFlatten (fields1 D) := by
  intro f hf raw hk
  simp only [fields1, List.mem_cons, List.not_mem_nil, or_false] at hf
  rcases hf with rfl | rfl <;> cases hk

theorem plain2 (D : Deser S2 (List V2)) : NoFlatten (fields2 D) := by
  intro f hf raw hk
  simp only [fields2, List.mem_cons, List.not_mem_nil, or_false] at hf
  rcases hf with rfl | rfl | rfl <;> cases hk

/-- Elements without the new attribute. -/
inductive Old : Elem → Prop where
  | mk {x : Elem} (h : ∀ a ∈ x.attrs, a.name.expanded ≠ ⟨"", "w"⟩) (hk : ∀ y ∈ x.children.childrenNamed ⟨"", "kid"⟩, Old y) : Old x

/-- What becomes of a value. -/
inductive Now : List V1 → List V2 → Prop where
  | leaf (s : String) : Now [.name s, .kid none] [.kids [], .weight none, .name (some s)]
  | node (s : String) {v : List V1} {v' : List V2} (h : Now v v') : Now [.name s, .kid (some v)] [.kids [v'], .weight none, .name (some s)]

/-- Where the new fields come from. -/
def src : Nat → Option Nat
  | 0 => some 1
  | 2 => some 0
  | _ => none

/-- The values of the new fields that were there before. -/
def rel : Nat → V1 → V2 → Prop
  | 0, v, v' => ∃ o l, v = .kid o ∧ v' = .kids l ∧ Rowwise Now o.toList l
  | _, v, v' => ∃ s, v = .name s ∧ v' = .name (some s)

theorem upgrades : Upgrades (only (structRaw (fields1 D1))) D1 (only (structRaw (fields2 D2))) D2 Old Now := by
  refine C82_recursive (κ := Unit) _ _ (fun _ => D1) (fun _ => D2) (fun _ => Old) (fun _ => Now) (fun n ih _ => ?_) ()
  have ih := ih ()
  show Upgrades _ D1 _ D2 _ _
  intro path x vs hx h
  replace h : Spec.Open.Reads (only (structRaw (fields1 D1))) (deserVia (structRaw (fields1 D1)) id some) path x vs := D1_eq ▸ h
  obtain ⟨vs', h', hlen, hc, hf⟩ := C82_struct (only (structRaw (fields1 D1))) (only (structRaw (fields2 D2))) (fields1 D1) (fields2 D2) (distinct1 _) (distinct2 _)
    (plain1 _) (plain2 _) id some (only_includes _) (fun _ => rfl) id some (only_includes _) (fun _ => rfl)
    (fun x => Old x ∧ elementsIn x.children = n) src rel
    (fun j f' i hj hi => by
      match j, hj, hi with
      | 0, hj, hi =>
        cases hi
        cases hj
        refine ⟨_, rfl, fun here x v hx hg => ?_⟩
        obtain ⟨v', hv', hr⟩ := C82_element (τ := Unit) (τ' := Unit) _ (only (structRaw (fields2 D2))) D1 D2 .opt .vec trivial .kid getKid (fun _ => rfl) .kids getKids (fun _ => rfl)
          ⟨none, "kid"⟩ ⟨none, "kid"⟩ rfl none none (fun _ _ => ⟨.kids [], rfl⟩) (fun x => Old x ∧ elementsIn x.children = n)
          (fun x => Old x ∧ elementsIn x.children < n)
          (fun x hx y hy => ⟨by cases hx.1 with | mk _ hk => exact hk y hy, hx.2 ▸ C82_children x y _ hy⟩) Now ih here x v hx hg
        refine ⟨v', hv', ?_⟩
        rcases hr with ⟨w, w', rfl, rfl, hr⟩ | ⟨h1, h2⟩
        · exact ⟨w, w', rfl, rfl, hr⟩
        · cases h1
          cases h2
          exact ⟨none, [], rfl, rfl, .nil⟩
      | 1, _, hi => cases hi
      | 2, hj, hi =>
        cases hi
        cases hj
        refine ⟨_, rfl, fun here x v hx hg => ?_⟩
        obtain ⟨v', hv', hr⟩ := C82_attribute (τ := Unit) (τ' := Unit) _ (only (structRaw (fields2 D2))) ((deAttr fun s => .ok s).into V1.name) ((deAttrOpt fun s => .ok s).into V2.name)
          ⟨none, "n"⟩ ⟨none, "n"⟩ rfl none none (fun _ h => nomatch h) (fun x => Old x ∧ elementsIn x.children = n) (rel 2) (fun s w h => by cases h; exact ⟨_, rfl, s, rfl, rfl⟩) here x v hx hg
        refine ⟨v', hv', ?_⟩
        rcases hr with hr | ⟨hr, -⟩
        · exact hr
        · cases hr
      | _ + 3, _, hi => cases hi)
    (fun j f' hj hs x hx => by
      match j, hj, hs with
      | 0, _, hs => cases hs
      | 1, hj, _ =>
        cases hj
        exact ⟨by cases hx.1 with | mk h _ => exact h, _, rfl⟩
      | 2, _, hs => cases hs
      | _ + 3, hj, _ => cases hj) path x vs hx h
  refine ⟨vs', reads_of_eq D2_eq h', ?_⟩
  have hl : vs.length = 2 := by
    have := (structRead_plain (plain1 D1)).mp (((C76_nested _ path x).1 (fields1 D1) id some vs (distinct1 _) (only_includes _) (fun _ => rfl)).mp h)
    exact (rowwise_getElem this).1.symm
  match vs, hl, vs', hlen, hc, hf with
  | [a, b], _, [c, d, e], _, hc, hf =>
    obtain ⟨v, hv, o, l, rfl, rfl, hr⟩ := hc 1 0 rfl c rfl
    cases hv
    obtain ⟨v, hv, s, rfl, rfl⟩ := hc 0 2 rfl e rfl
    cases hv
    cases hf 1 _ d rfl rfl rfl
    cases o with
    | none => cases hr; exact .leaf s
    | some v =>
      cases hr with
      | cons hr t => cases t; exact .node s hr

/-- `<r n="1"><kid n="2"/></r>` -/
def doc : Doc :=
  { startPos := p 0, prolog := [],
    root := Elem.mk (q "r") [{ name := q "n", value := "1" }] [] (p 1) (.elem (q "kid") [{ name := q "n", value := "2" }] [] (p 2) .nil (p 3) .nil) (p 4),
    epilog := [], eofPos := p 5, epilogOk := by simp }

theorem doc_old : Old doc.root := by
  refine .mk (by simp [doc, q, QName.expanded]) fun y hy => ?_
  simp only [doc, Forest.childrenNamed, Forest.children, List.filter_cons, List.filter_nil] at hy
  split at hy
  · simp only [List.mem_singleton] at hy
    subst hy
    refine .mk (by simp [q, QName.expanded]) fun z hz => ?_
    simp [Forest.childrenNamed, Forest.children] at hz
  · simp at hy

/-- The old program reads the document, so the new one does, and the values correspond. -/
example : read false (only (structRaw (fields1 D1))) D1 doc.input = .ok (.ok [.name "1", .kid (some [.name "2", .kid none])]) ∧
    ∃ v', read false (only (structRaw (fields2 D2))) D2 doc.input = .ok (.ok v') ∧ Now [.name "1", .kid (some [.name "2", .kid none])] v' :=
  ⟨rfl, C82_read false false _ _ _ _ (.inl rfl) (.inl rfl) Old Now upgrades doc doc_old _ rfl⟩

/-! A struct with a flattened field gets another field; both versions in one program. -/

abbrev S3 := Bool × List (OCell Nat Nat)

/-- A flattened type that counts the children it is given. -/
def rest : Raw S3 Nat Nat where
  new := 0
  attr t _ v := .ok (t, .ok (some v))
  characters t s _ := .ok (t, .ok (some s))
  element t _ := .ok (.take (.done (.ok (t + 1, .ok ()))))
  finalize t _ := .ok (t, .ok ())
  out t := some t

def note : OField S3 Nat Nat :=
  ⟨⟨none, "note"⟩, .element (((Multi.opt).impl (deText fun s => .ok s.length)).into (fun o => o.getD 0) (fun n => some (some n))), none⟩

def fields3 : List (OField S3 Nat Nat) := [⟨⟨none, "rest"⟩, .flatten rest, none⟩]

def V3 : Visitor S3 where
  onAttr s n v :=
    match s with
    | (false, t) => heardText (Prod.mk false) ((structRaw fields3).attr t n v)
    | (true, t) => heardText (Prod.mk true) ((structRaw (fields3 ++ note :: [])).attr t n v)
  onChars s v pos :=
    match s with
    | (false, t) => heardText (Prod.mk false) ((structRaw fields3).characters t v pos)
    | (true, t) => heardText (Prod.mk true) ((structRaw (fields3 ++ note :: [])).characters t v pos)
  onElem s info :=
    match s with
    | (false, t) => heardElem (Prod.mk false) ((structRaw fields3).element t info)
    | (true, t) => heardElem (Prod.mk true) ((structRaw (fields3 ++ note :: [])).element t info)

theorem distinct3 : Distinct fields3 := by
  intro p q f g hp hq hn hk
  match p, q with
  | 0, 0 => rfl
  | p + 1, _ => simp [fields3] at hp
  | _, q + 1 => simp [fields3] at hq

theorem distinct3' : Distinct (fields3 ++ note :: []) := by
  intro p q f g hp hq hn hk
  match p, q with
  | 0, 0 => rfl
  | 1, 1 => rfl
  | 0, 1 | 1, 0 =>
    simp only [fields3, List.cons_append, List.nil_append, List.getElem?_cons_zero, List.getElem?_cons_succ, Option.some.injEq] at hp hq
    subst hp hq
    simp [DName.expanded, note] at hn
  | p + 2, _ => simp [fields3] at hp
  | _, q + 2 => simp [fields3] at hq

/-- The document has one child, and none for the new field. -/
example : Spec.Open.Reads V3 (deserVia (structRaw (fields3 ++ note :: [])) (Prod.mk true) (fun s => some s.2)) [] doc.root [1, 0] :=
  (C82_added V3 fields3 [] note distinct3 distinct3' (Prod.mk false) (Prod.mk true) (fun s => some s.2) (fun s => some s.2)
    ⟨fun _ _ _ => rfl, fun _ _ _ => rfl, fun _ _ => rfl⟩ (fun _ => rfl) ⟨fun _ _ _ => rfl, fun _ _ _ => rfl, fun _ _ => rfl⟩ (fun _ => rfl)
    [] doc.root rfl [1] [] rfl 0).mpr ⟨⟨_, rfl⟩, rfl⟩

/-! An enum gets another variant, and the payload of one becomes a `Vec`. -/

def vars4 : List (OVariant (OEnum String) String) := [⟨⟨none, "kid"⟩, some (((Multi.one).impl (deText fun s => .ok s)).into id some)⟩]

def vars5 : List (OVariant (OEnum (List String)) (List String)) :=
  [⟨⟨none, "extra"⟩, none⟩, ⟨⟨none, "kid"⟩, some (((Multi.vec).impl (deText fun s => .ok s)).into id some)⟩]

theorem searchable4 : Searchable vars4 where
  distinct i j v w hi hj hn := by
    match i, j with
    | 0, 0 => rfl
    | i + 1, _ => simp [vars4] at hi
    | _, j + 1 => simp [vars4] at hj
  noneFirst := by
    intro d hd e he h1 h2
    simp only [vars4, List.map_cons, List.map_nil, List.mem_cons, List.not_mem_nil, or_false] at he
    subst he
    cases h2

theorem searchable5 : Searchable vars5 where
  distinct i j v w hi hj hn := by
    match i, j with
    | 0, 0 => rfl
    | 1, 1 => rfl
    | 0, 1 | 1, 0 =>
      simp only [vars5, List.getElem?_cons_zero, List.getElem?_cons_succ, Option.some.injEq] at hi hj
      subst hi hj
      simp [DName.expanded] at hn
    | i + 2, _ => simp [vars5] at hi
    | _, j + 2 => simp [vars5] at hj
  noneFirst := by
    intro d hd e he h1 h2
    simp only [vars5, List.map_cons, List.map_nil, List.mem_cons, List.not_mem_nil, or_false] at he
    rcases he with rfl | rfl <;> cases h2

/-- Text is read as before. -/
theorem text_upgrades {σ σ' : Type} (V : Visitor σ) (V' : Visitor σ') :
    Upgrades V (deText fun s => .ok s : Deser σ String) V' (deText fun s => .ok s : Deser σ' String) (fun _ => True) Eq := by
  intro path x v _ h
  exact ⟨v, (C76_text V' _ path x v).mpr ((C76_text V _ path x v).mp h), rfl⟩

theorem enum_upgrades : Upgrades (only (enumRaw "E" vars4)) (deserVia (enumRaw "E" vars4) id some) (only (enumRaw "E" vars5)) (deserVia (enumRaw "E" vars5) id some)
    (fun x => x.children.childrenNamed ⟨"", "extra"⟩ = [])
    (fun r r' => r'.1 = r.1 + 1 ∧ (r.2 = none ∧ r'.2 = none ∨ ∃ p p', r.2 = some p ∧ r'.2 = some p' ∧ p' = [p])) :=
  C82_enum _ _ "E" "E" vars4 vars5 searchable4 searchable5 id some (only_includes _) (fun _ => rfl) id some (only_includes _) (fun _ => rfl) _ (· + 1)
    (fun _ p p' => p' = [p])
    (fun i v hv => by
      match i, hv with
      | 0, hv =>
        cases hv
        refine ⟨_, rfl, rfl, fun here x p hx h => ?_⟩
        obtain ⟨p', hp', w, w', hw, hw', hr⟩ := C82_payload (only (enumRaw "E" vars4)) (only (enumRaw "E" vars5)) _ (deText fun s => .ok s) .one .vec trivial id some (fun _ => rfl)
          id some (fun _ => rfl) ⟨"", "kid"⟩ (fun _ => True) (fun _ => True) (fun _ _ _ _ => trivial) Eq (text_upgrades _ _) here x p trivial h
        refine ⟨_, hp', ?_⟩
        generalize hl : (Multi.vec).values w' = l at hr
        cases hr with
        | cons hr t => cases t; rw [hw, hw', hr]; exact hl
      | _ + 1, hv => cases hv)
    (fun v' hv' => by
      simp only [vars5, List.mem_cons, List.not_mem_nil, or_false] at hv'
      rcases hv' with rfl | rfl
      · exact .inr fun x hx => hx
      · exact .inl ⟨_, List.mem_cons_self, rfl⟩)

/-- An element of the old enum, with text. -/
example : Spec.Open.Reads (only (enumRaw "E" vars4)) (deserVia (enumRaw "E" vars4) id some) []
    (Elem.mk (q "r") [] [] (p 1) (.elem (q "kid") [] [] (p 2) (.chars "x" false (p 3) .nil) (p 4) .nil) (p 5)) (0, some "x") := ⟨_, rfl⟩

/-- What the old program writes for the value `E::Kid("x")`, the new one reads. -/
example : ∃ s, serializeTo true ExOS.fine ⟨"", "r"⟩ (enumSer [] (.payload ⟨none, "kid"⟩ (fieldOne (textSer (.ok "x"))))).attrs
      (enumSer [] (.payload ⟨none, "kid"⟩ (fieldOne (textSer (.ok "x"))))).children = .ok (s, .ok ()) ∧ (∃ d, Transported s.out d) ∧
    ∀ d, Transported s.out d → d.root.children.childrenNamed ⟨"", "extra"⟩ = [] →
      ∃ v', read false (only (enumRaw "E" vars5)) (deserVia (enumRaw "E" vars5) id some) d.input = .ok (.ok v') ∧
        v'.1 = 1 ∧ (some "x" = none ∧ v'.2 = none ∨ ∃ p p', some "x" = some p ∧ v'.2 = some p' ∧ p' = [p]) :=
  C82_written true false _ _ _ _ (.inl rfl) _ _ enum_upgrades ExOS.fine (fun _ _ => rfl) ⟨"", "r"⟩ _ (0, some "x")
    (C77_enum (only (enumRaw "E" vars4)) [] "E" vars4 searchable4 id some (only_includes _) (fun _ => rfl) (i := 0) rfl
      ((C77_variant _ (deText .ok) ⟨none, "kid"⟩).2.1 id some (textSer (.ok "x")) "x" (fun _ => rfl) (C77_text _ .ok "x" "x" (by
        rw [visible, if_neg (by decide)]) _)) _)
    (C78_enum _ _ _ _ _ _ (by simp) (.inr (.inr ⟨rfl, rfl⟩)) ((C78_field _ _ _).1 _ ⟨.inr (.inr ⟨rfl, rfl⟩), fun _ => trivial⟩))
    (andThen_noForget (fieldOne_noForget _ _ fun _ => trivial) trivial)

end ExV

end SX
