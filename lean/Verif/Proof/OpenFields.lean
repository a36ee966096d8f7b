import Verif.Proof.Open

/-
What ends up in the fields, and delegation to flattened fields.
-/
namespace SX.Open
open SX.Spec.Open

variable {σ τ α : Type}

/-! ## Delegation -/

theorem flatPos_plain {f : OField σ τ α} (h : ¬ ∃ raw, f.kind = .flatten raw) (fields : List (OField σ τ α)) (k : Nat) :
    flatPos (f :: fields) k = flatPos fields (k + 1) := by
  rw [flatPos]
  cases hk : f.kind with
  | flatten raw => exact absurd ⟨raw, hk⟩ h
  | element impl => rfl
  | «attribute» impl => rfl

theorem flatOf_plain {f : OField σ τ α} (h : ¬ ∃ raw, f.kind = .flatten raw) (fields : List (OField σ τ α)) (c : OCell τ α)
    (fs : List (OCell τ α)) : flatOf (f :: fields) (c :: fs) = flatOf fields fs := by
  rw [flatOf]
  exact fun raw _ hk _ => absurd ⟨raw, hk⟩ h

theorem flatOf_flat {nm : DName} {raw : Raw σ τ α} {df : Option (Ret Empty α)} (fields : List (OField σ τ α)) (t : τ)
    (fs : List (OCell τ α)) :
    flatOf (⟨nm, .flatten raw, df⟩ :: fields) (.flat t :: fs) = (raw, t) :: flatOf fields fs := rfl

theorem samePlain_cons {f : OField σ τ α} {fields : List (OField σ τ α)} {c d : OCell τ α} {fs fs' : List (OCell τ α)}
    (h : SamePlain fields fs fs') (hd : (∃ raw, f.kind = .flatten raw) ∨ d = c) :
    SamePlain (f :: fields) (c :: fs) (d :: fs') := by
  intro p g hg hk
  cases p with
  | zero =>
    simp only [List.getElem?_cons_zero, Option.some.injEq] at hg ⊢
    subst hg
    rcases hd with ⟨raw, hr⟩ | hd
    · exact absurd hr (hk raw)
    · exact hd
  | succ p =>
    simp only [List.getElem?_cons_succ] at hg ⊢
    exact h p g hg hk

theorem samePlain_refl (fields : List (OField σ τ α)) (fs : List (OCell τ α)) : SamePlain fields fs fs := fun _ _ _ _ => rfl

/-- The memory has the shape of the fields. -/
def Shaped : List (OField σ τ α) → List (OCell τ α) → Prop
  | [], [] => True
  | f :: fs, c :: cs => ((∃ t, c = .flat t) ↔ ∃ raw, f.kind = .flatten raw) ∧ Shaped fs cs
  | _, _ => False

theorem Shaped.of_cellsOk {fields : List (OField σ τ α)} {fs : List (OCell τ α)} (h : CellsOk fields fs) : Shaped fields fs := by
  induction fields generalizing fs with
  | nil => cases fs with
    | nil => trivial
    | cons c cs => exact h
  | cons f fields ih =>
    cases fs with
    | nil => exact h
    | cons c fs =>
      refine ⟨?_, ih h.2⟩
      have := h.1
      unfold CellOk at this
      cases hk : f.kind with
      | flatten raw =>
        rw [hk] at this
        obtain ⟨t, rfl, -⟩ := this
        simp
      | element impl =>
        rw [hk] at this
        obtain ⟨cell, rfl⟩ := this
        simp
      | «attribute» impl =>
        rw [hk] at this
        obtain ⟨cell, rfl⟩ := this
        simp

theorem delegateElement_passed (info : ElemInfo) (s : Supply σ) (pre fields : List (OField σ τ α))
    (cpre fs : List (OCell τ α)) (hl : pre.length = cpre.length) (o : Offer σ (List (OCell τ α)))
    (h : delegateElement (pre ++ fields) info (flatPos fields pre.length) (cpre ++ fs) = .ok o) (hs : Shaped fields fs) :
    (∃ fs', o = .back (cpre ++ fs') ∧ Passed (OffersElem info s) (flatOf fields fs) () ((flatOf fields fs').map Prod.snd) (.inl ()) ∧
      Shaped fields fs' ∧ SamePlain fields fs fs') ∨
    ∃ a, o = .take a ∧ ∀ gs x, give s a = .ok (gs, x) → ∃ fs', gs = cpre ++ fs' ∧
      Passed (OffersElem info s) (flatOf fields fs) () ((flatOf fields fs').map Prod.snd) (.inr x) ∧
      Shaped fields fs' ∧ SamePlain fields fs fs' := by
  induction fields generalizing pre cpre fs o with
  | nil =>
    cases fs with
    | cons c cs => exact hs.elim
    | nil =>
      simp only [flatPos, delegateElement, Except.ok.injEq] at h
      exact .inl ⟨[], h.symm, .nobody (), trivial, samePlain_refl _ _⟩
  | cons f fields ih =>
    cases fs with
    | nil => exact hs.elim
    | cons c fs =>
      obtain ⟨hs1, hs⟩ := hs
      have hpre : pre ++ f :: fields = (pre ++ [f]) ++ fields := by simp
      have hcpre : ∀ d : OCell τ α, cpre ++ d :: fs = (cpre ++ [d]) ++ fs := fun d => by simp
      have hl' : ∀ d : OCell τ α, (pre ++ [f]).length = (cpre ++ [d]).length := fun d => by simp [hl]
      by_cases hk : ∃ raw, f.kind = .flatten raw
      · obtain ⟨t, rfl⟩ := hs1.mpr hk
        have hk' := hk
        obtain ⟨raw, hk⟩ := hk
        have hsh : ∀ t' fs', Shaped fields fs' → Shaped (f :: fields) (.flat t' :: fs') := fun t' fs' h =>
          ⟨⟨fun _ => ⟨raw, hk⟩, fun _ => ⟨t', rfl⟩⟩, h⟩
        unfold flatPos at h
        simp only [hk] at h
        unfold delegateElement at h
        rw [show (pre ++ f :: fields)[pre.length]? = some f by simp,
          show (cpre ++ OCell.flat t :: fs)[pre.length]? = some (.flat t) by rw [hl]; simp] at h
        obtain ⟨nm, kd, df⟩ := f
        simp only at hk
        subst hk
        simp only at h
        have hset : ∀ t', (cpre ++ OCell.flat t :: fs).set pre.length (.flat t') = cpre ++ OCell.flat t' :: fs := by
          intro t'
          rw [hl]
          simp
        cases he : raw.element t info with
        | error e => rw [he] at h; exact nomatch h
        | ok o' =>
          rw [he] at h
          cases o' with
          | back t' =>
            simp only at h
            rw [hset, hpre, hcpre, show pre.length + 1 = (pre ++ [_]).length by simp] at h
            rcases ih _ _ _ (hl' _) o h hs with ⟨fs', h1, h2, h3, h4⟩ | ⟨a, h1, h2⟩
            · exact .inl ⟨.flat t' :: fs', by rw [h1]; simp, Passed.next (x' := ()) he h2, hsh _ _ h3, samePlain_cons h4 (.inl hk')⟩
            · refine .inr ⟨a, h1, fun gs x hg => ?_⟩
              obtain ⟨fs', h3, h4, h5, h6⟩ := h2 gs x hg
              exact ⟨.flat t' :: fs', by rw [h3]; simp, Passed.next (x' := ()) he h4, hsh _ _ h5, samePlain_cons h6 (.inl hk')⟩
          | take a =>
            simp only [Except.ok.injEq] at h
            subst h
            refine .inr ⟨_, rfl, fun gs x hg => ?_⟩
            rw [give_map] at hg
            cases hga : give s a with
            | error e => rw [hga] at hg; exact nomatch hg
            | ok y =>
              rw [hga] at hg
              obtain ⟨t', y⟩ := y
              simp only [Except.map, Except.ok.injEq, Prod.mk.injEq] at hg
              obtain ⟨rfl, rfl⟩ := hg
              exact ⟨.flat t' :: fs, hset t', Passed.keep (l := flatOf fields fs) ⟨a, he, hga⟩, hsh _ _ hs,
                samePlain_cons (samePlain_refl _ _) (.inl hk')⟩
      · rw [flatPos_plain hk, hpre, hcpre, show pre.length + 1 = (pre ++ [f]).length by simp] at h
        rcases ih _ _ _ (hl' _) o h hs with ⟨fs', h1, h2, h3, h4⟩ | ⟨a, h1, h2⟩
        · exact .inl ⟨c :: fs', by rw [h1]; simp, by rw [flatOf_plain hk, flatOf_plain hk]; exact h2, ⟨hs1, h3⟩,
            samePlain_cons h4 (.inr rfl)⟩
        · refine .inr ⟨a, h1, fun gs x hg => ?_⟩
          obtain ⟨fs', h3, h4, h5, h6⟩ := h2 gs x hg
          exact ⟨c :: fs', by rw [h3]; simp, by rw [flatOf_plain hk, flatOf_plain hk]; exact h4, ⟨hs1, h5⟩,
            samePlain_cons h6 (.inr rfl)⟩

theorem delegateAttribute_passed (n : EName) (pre fields : List (OField σ τ α))
    (cpre fs : List (OCell τ α)) (hl : pre.length = cpre.length) (v : String) (gs : List (OCell τ α)) (x : Ret VErr (Option String))
    (h : delegateAttribute (pre ++ fields) n (flatPos fields pre.length) (cpre ++ fs) v = .ok (gs, x)) (hs : Shaped fields fs) :
    ∃ fs' r, gs = cpre ++ fs' ∧ x = answer r ∧
      Passed (OffersAttr n) (flatOf fields fs) v ((flatOf fields fs').map Prod.snd) r ∧
      Shaped fields fs' ∧ SamePlain fields fs fs' := by
  induction fields generalizing pre cpre fs v with
  | nil =>
    cases fs with
    | cons c cs => exact hs.elim
    | nil =>
      simp only [flatPos, delegateAttribute, Except.ok.injEq, Prod.mk.injEq] at h
      exact ⟨[], .inl v, h.1.symm, h.2.symm, .nobody v, trivial, samePlain_refl _ _⟩
  | cons f fields ih =>
    cases fs with
    | nil => exact hs.elim
    | cons c fs =>
      obtain ⟨hs1, hs⟩ := hs
      have hpre : pre ++ f :: fields = (pre ++ [f]) ++ fields := by simp
      have hcpre : ∀ d : OCell τ α, cpre ++ d :: fs = (cpre ++ [d]) ++ fs := fun d => by simp
      have hl' : ∀ d : OCell τ α, (pre ++ [f]).length = (cpre ++ [d]).length := fun d => by simp [hl]
      by_cases hk : ∃ raw, f.kind = .flatten raw
      · obtain ⟨t, rfl⟩ := hs1.mpr hk
        have hk' := hk
        obtain ⟨raw, hk⟩ := hk
        have hsh : ∀ t' fs', Shaped fields fs' → Shaped (f :: fields) (.flat t' :: fs') := fun t' fs' h =>
          ⟨⟨fun _ => ⟨raw, hk⟩, fun _ => ⟨t', rfl⟩⟩, h⟩
        unfold flatPos at h
        simp only [hk] at h
        unfold delegateAttribute at h
        rw [show (pre ++ f :: fields)[pre.length]? = some f by simp,
          show (cpre ++ OCell.flat t :: fs)[pre.length]? = some (.flat t) by rw [hl]; simp] at h
        obtain ⟨nm, kd, df⟩ := f
        simp only at hk
        subst hk
        simp only at h
        have hset : ∀ t', (cpre ++ OCell.flat t :: fs).set pre.length (.flat t') = cpre ++ OCell.flat t' :: fs := by
          intro t'
          rw [hl]
          simp
        have stop : ∀ t' (r : Ret VErr Unit), gs = (cpre ++ OCell.flat t :: fs).set pre.length (.flat t') → x = answer (.inr r) →
            OffersAttr n raw t v t' (.inr r) → ∃ fs' r, gs = cpre ++ fs' ∧ x = answer r ∧
              Passed (OffersAttr n) (flatOf (⟨nm, .flatten raw, df⟩ :: fields) (.flat t :: fs)) v
                ((flatOf (⟨nm, .flatten raw, df⟩ :: fields) fs').map Prod.snd) r ∧
              Shaped (⟨nm, .flatten raw, df⟩ :: fields) fs' ∧ SamePlain (⟨nm, .flatten raw, df⟩ :: fields) (.flat t :: fs) fs' := by
          intro t' r hg hx hr
          exact ⟨.flat t' :: fs, .inr r, by rw [hg, hset], hx, Passed.keep (l := flatOf fields fs) hr, hsh _ _ hs,
            samePlain_cons (samePlain_refl _ _) (.inl hk')⟩
        cases he : raw.attr t n v with
        | error e => rw [he] at h; exact nomatch h
        | ok y =>
          rw [he] at h
          obtain ⟨t', y⟩ := y
          cases y with
          | ok y =>
            cases y with
            | some v' =>
              simp only at h
              rw [hset, hpre, hcpre, show pre.length + 1 = (pre ++ [_]).length by simp] at h
              obtain ⟨fs', r, h1, h2, h3, h4, h5⟩ := ih _ _ _ (hl' _) v' h hs
              exact ⟨.flat t' :: fs', r, by rw [h1]; simp, h2, Passed.next he h3, hsh _ _ h4, samePlain_cons h5 (.inl hk')⟩
            | none =>
              simp only [Except.ok.injEq, Prod.mk.injEq] at h
              exact stop t' (.ok ()) h.1.symm h.2.symm he
          | err e =>
            simp only [Except.ok.injEq, Prod.mk.injEq] at h
            exact stop t' (.err e) h.1.symm h.2.symm he
          | panic =>
            simp only [Except.ok.injEq, Prod.mk.injEq] at h
            exact stop t' .panic h.1.symm h.2.symm he
      · rw [flatPos_plain hk, hpre, hcpre, show pre.length + 1 = (pre ++ [f]).length by simp] at h
        obtain ⟨fs', r, h1, h2, h3, h4, h5⟩ := ih _ _ _ (hl' _) v h hs
        exact ⟨c :: fs', r, by rw [h1]; simp, h2, by rw [flatOf_plain hk, flatOf_plain hk]; exact h3, ⟨hs1, h4⟩,
          samePlain_cons h5 (.inr rfl)⟩

theorem delegateCharacters_passed (pos : Pos) (pre fields : List (OField σ τ α))
    (cpre fs : List (OCell τ α)) (hl : pre.length = cpre.length) (v : String) (gs : List (OCell τ α)) (x : Ret DErr (Option String))
    (h : delegateCharacters (pre ++ fields) pos (flatPos fields pre.length) (cpre ++ fs) v = .ok (gs, x)) (hs : Shaped fields fs) :
    ∃ fs' r, gs = cpre ++ fs' ∧ x = answer r ∧
      Passed (OffersChars pos) (flatOf fields fs) v ((flatOf fields fs').map Prod.snd) r ∧
      Shaped fields fs' ∧ SamePlain fields fs fs' := by
  induction fields generalizing pre cpre fs v with
  | nil =>
    cases fs with
    | cons c cs => exact hs.elim
    | nil =>
      simp only [flatPos, delegateCharacters, Except.ok.injEq, Prod.mk.injEq] at h
      exact ⟨[], .inl v, h.1.symm, h.2.symm, .nobody v, trivial, samePlain_refl _ _⟩
  | cons f fields ih =>
    cases fs with
    | nil => exact hs.elim
    | cons c fs =>
      obtain ⟨hs1, hs⟩ := hs
      have hpre : pre ++ f :: fields = (pre ++ [f]) ++ fields := by simp
      have hcpre : ∀ d : OCell τ α, cpre ++ d :: fs = (cpre ++ [d]) ++ fs := fun d => by simp
      have hl' : ∀ d : OCell τ α, (pre ++ [f]).length = (cpre ++ [d]).length := fun d => by simp [hl]
      by_cases hk : ∃ raw, f.kind = .flatten raw
      · obtain ⟨t, rfl⟩ := hs1.mpr hk
        have hk' := hk
        obtain ⟨raw, hk⟩ := hk
        have hsh : ∀ t' fs', Shaped fields fs' → Shaped (f :: fields) (.flat t' :: fs') := fun t' fs' h =>
          ⟨⟨fun _ => ⟨raw, hk⟩, fun _ => ⟨t', rfl⟩⟩, h⟩
        unfold flatPos at h
        simp only [hk] at h
        unfold delegateCharacters at h
        rw [show (pre ++ f :: fields)[pre.length]? = some f by simp,
          show (cpre ++ OCell.flat t :: fs)[pre.length]? = some (.flat t) by rw [hl]; simp] at h
        obtain ⟨nm, kd, df⟩ := f
        simp only at hk
        subst hk
        simp only at h
        have hset : ∀ t', (cpre ++ OCell.flat t :: fs).set pre.length (.flat t') = cpre ++ OCell.flat t' :: fs := by
          intro t'
          rw [hl]
          simp
        have stop : ∀ t' (r : Ret DErr Unit), gs = (cpre ++ OCell.flat t :: fs).set pre.length (.flat t') → x = answer (.inr r) →
            OffersChars pos raw t v t' (.inr r) → ∃ fs' r, gs = cpre ++ fs' ∧ x = answer r ∧
              Passed (OffersChars pos) (flatOf (⟨nm, .flatten raw, df⟩ :: fields) (.flat t :: fs)) v
                ((flatOf (⟨nm, .flatten raw, df⟩ :: fields) fs').map Prod.snd) r ∧
              Shaped (⟨nm, .flatten raw, df⟩ :: fields) fs' ∧ SamePlain (⟨nm, .flatten raw, df⟩ :: fields) (.flat t :: fs) fs' := by
          intro t' r hg hx hr
          exact ⟨.flat t' :: fs, .inr r, by rw [hg, hset], hx, Passed.keep (l := flatOf fields fs) hr, hsh _ _ hs,
            samePlain_cons (samePlain_refl _ _) (.inl hk')⟩
        cases he : raw.characters t v pos with
        | error e => rw [he] at h; exact nomatch h
        | ok y =>
          rw [he] at h
          obtain ⟨t', y⟩ := y
          cases y with
          | ok y =>
            cases y with
            | some v' =>
              simp only at h
              rw [hset, hpre, hcpre, show pre.length + 1 = (pre ++ [_]).length by simp] at h
              obtain ⟨fs', r, h1, h2, h3, h4, h5⟩ := ih _ _ _ (hl' _) v' h hs
              exact ⟨.flat t' :: fs', r, by rw [h1]; simp, h2, Passed.next he h3, hsh _ _ h4, samePlain_cons h5 (.inl hk')⟩
            | none =>
              simp only [Except.ok.injEq, Prod.mk.injEq] at h
              exact stop t' (.ok ()) h.1.symm h.2.symm he
          | err e =>
            simp only [Except.ok.injEq, Prod.mk.injEq] at h
            exact stop t' (.err e) h.1.symm h.2.symm he
          | panic =>
            simp only [Except.ok.injEq, Prod.mk.injEq] at h
            exact stop t' .panic h.1.symm h.2.symm he
      · rw [flatPos_plain hk, hpre, hcpre, show pre.length + 1 = (pre ++ [f]).length by simp] at h
        obtain ⟨fs', r, h1, h2, h3, h4, h5⟩ := ih _ _ _ (hl' _) v h hs
        exact ⟨c :: fs', r, by rw [h1]; simp, h2, by rw [flatOf_plain hk, flatOf_plain hk]; exact h3, ⟨hs1, h4⟩,
          samePlain_cons h5 (.inr rfl)⟩

/-! ## Element and attribute fields -/

theorem run_cells {fields : List (OField σ τ α)} (hF : FlatSound fields) (h : List (Call σ)) :
    ∃ fs, run (structRaw fields) h (structRaw fields).new = .ok fs ∧ CellsOk fields fs := by
  have key : ∀ (h : List (Call σ)) fs, CellsOk fields fs → ∃ fs', run (structRaw fields) h fs = .ok fs' ∧ CellsOk fields fs' := by
    intro h
    induction h with
    | nil => exact fun fs hfs => ⟨fs, rfl, hfs⟩
    | cons c h ih =>
      intro fs hfs
      obtain ⟨fs1, h1, h2⟩ := structStep_ok hF fs c hfs
      unfold run
      rw [h1]
      exact ih fs1 h2
  exact key h _ (cellsOk_new fields)

/-- What one call does to an element field. -/
def elemStep (f : OField σ τ α) (impl : FieldImpl σ α) (c : Option α) : Call σ → Option α
  | .elem info s => if info.name.expanded = f.name.expanded then afterElems impl c [(info, s)] else c
  | _ => c

/-- What one call does to an attribute field. -/
def attrStep (f : OField σ τ α) (impl : AttrImpl α) (c : Option α) : Call σ → Option α
  | .attr n v =>
    if n = f.name.expanded then c.or (afterAttrs impl [v]) else c
  | _ => c

/-- The field is the one that is found by its name. -/
def Hears (fields : List (OField σ τ α)) (p : Nat) (f : OField σ τ α) : Prop :=
  match f.kind with
  | .element _ => lookup f.name.expanded (structTable (elemNames fields 0)) = .ok (some p)
  | .attribute _ => lookup f.name.expanded (structTable (attrNames fields 0)) = .ok (some p)
  | .flatten _ => False

theorem Distinct.hears {fields : List (OField σ τ α)} (hD : Distinct fields) {p : Nat} {f : OField σ τ α} (hf : fields[p]? = some f)
    (hk : ∀ raw, f.kind ≠ .flatten raw) : Hears fields p f := by
  unfold Hears
  cases hk' : f.kind with
  | flatten raw => exact absurd hk' (hk raw)
  | element impl =>
    rcases lookup_elem fields f.name.expanded with ⟨q, g, gi, h1, hg, hgk, hgn⟩ | ⟨-, h⟩
    · rw [← hD q p g f hg hf hgn (.inl ⟨gi, impl, hgk, hk'⟩)]; exact h1
    · exact absurd rfl (h f (List.mem_of_getElem? hf) impl hk')
  | «attribute» impl =>
    rcases lookup_attr fields f.name.expanded with ⟨q, g, gi, h1, hg, hgk, hgn⟩ | ⟨-, h⟩
    · rw [← hD q p g f hg hf hgn (.inr ⟨gi, impl, hgk, hk'⟩)]; exact h1
    · exact absurd rfl (h f (List.mem_of_getElem? hf) impl hk')

theorem structStep_elem {fields : List (OField σ τ α)} (hF : FlatSound fields) {fs fs' : List (OCell τ α)}
    (h : CellsOk fields fs) (c : Call σ) (hs : step (structRaw fields) fs c = .ok fs') {p : Nat} {f : OField σ τ α}
    (hf : fields[p]? = some f) (hD : Hears fields p f) {impl : FieldImpl σ α} (hk : f.kind = .element impl) {cell : Option α}
    (hc : fs[p]? = some (.plain cell.isSome cell)) :
    fs'[p]? = some (.plain (elemStep f impl cell c).isSome (elemStep f impl cell c)) := by
  have hnf : ∀ raw, f.kind ≠ .flatten raw := by rw [hk]; exact nofun
  cases c with
  | attr n v =>
    change (structAttribute fields fs n v).map Prod.fst = .ok fs' at hs
    show fs'[p]? = some (.plain cell.isSome cell)
    unfold structAttribute at hs
    rcases lookup_attr fields n with ⟨q, g, gi, h1, hg, hgk, -⟩ | ⟨h1, -⟩
    · rw [h1] at hs
      obtain ⟨d, hd, hok⟩ := h.get hg
      have hqp : q ≠ p := by
        rintro rfl
        rw [hf] at hg
        cases hg
        rw [hk] at hgk
        exact nomatch hgk
      obtain ⟨nm, kd, df⟩ := g
      simp only at hgk
      subst hgk
      obtain ⟨dc, rfl⟩ := hok
      simp only [hg, hd] at hs
      cases dc with
      | some a =>
        simp only [Option.isSome_some, if_true, Except.map, Except.ok.injEq] at hs
        rw [← hs]; exact hc
      | none =>
        rw [if_neg (by simp)] at hs
        cases hi : gi.init v with
        | ok a =>
          simp only [hi, write, Except.map, Except.ok.injEq] at hs
          rw [← hs, List.getElem?_set_ne hqp]; exact hc
        | err e =>
          simp only [hi, Except.map, Except.ok.injEq] at hs
          rw [← hs]; exact hc
        | panic =>
          simp only [hi, Except.map, Except.ok.injEq] at hs
          rw [← hs]; exact hc
    · rw [h1] at hs
      simp only at hs
      cases hda : delegateAttribute fields n (flatPos fields 0) fs v with
      | error e => rw [hda] at hs; exact nomatch hs
      | ok y =>
        rw [hda] at hs
        obtain ⟨gs, x⟩ := y
        simp only [Except.map, Except.ok.injEq] at hs
        subst hs
        obtain ⟨fs'', r, h2, -, -, -, h3⟩ := delegateAttribute_passed n [] fields [] fs rfl v gs x hda (Shaped.of_cellsOk h)
        rw [h2]
        exact (h3 p f hf hnf).trans hc
  | chars v pos =>
    change (delegateCharacters fields pos (flatPos fields 0) fs v).map Prod.fst = .ok fs' at hs
    show fs'[p]? = some (.plain cell.isSome cell)
    cases hda : delegateCharacters fields pos (flatPos fields 0) fs v with
    | error e => rw [hda] at hs; exact nomatch hs
    | ok y =>
      rw [hda] at hs
      obtain ⟨gs, x⟩ := y
      simp only [Except.map, Except.ok.injEq] at hs
      subst hs
      obtain ⟨fs'', r, h2, -, -, -, h3⟩ := delegateCharacters_passed pos [] fields [] fs rfl v gs x hda (Shaped.of_cellsOk h)
      rw [h2]
      exact (h3 p f hf hnf).trans hc
  | elem info s =>
    unfold step at hs
    simp only at hs
    rw [show (structRaw fields).element = structElement fields from rfl] at hs
    unfold structElement at hs
    unfold elemStep
    simp only
    rcases lookup_elem fields info.name.expanded with ⟨q, g, gi, h1, hg, hgk, hgn⟩ | ⟨h1, h1'⟩
    · rw [h1] at hs
      obtain ⟨d, hd, hok⟩ := h.get hg
      by_cases hqp : q = p
      · subst hqp
        rw [hf] at hg
        cases hg
        rw [hk] at hgk
        cases hgk
        rw [if_pos hgn.symm]
        have hlt : q < fs.length := (List.getElem?_eq_some_iff.mp hc).1
        rw [hc] at hd
        cases hd
        obtain ⟨nm, kd, df⟩ := f
        simp only at hk
        subst hk
        simp only [hf, hc] at hs
        cases cell with
        | some a =>
          simp only [Option.isSome_some, if_true, give_map, Except.map, Except.ok.injEq] at hs
          rw [← hs, List.getElem?_set_self hlt]
          rfl
        | none =>
          rw [if_neg (by simp)] at hs
          simp only [give_map] at hs
          cases hi : give s (impl.init info) with
          | ok a =>
            simp only [hi, write, Except.map, Except.ok.injEq] at hs
            rw [← hs, List.getElem?_set_self hlt]
            simp [afterElems, hi]
          | err e =>
            simp only [hi, Except.map, Except.ok.injEq] at hs
            rw [← hs, hc]
            simp [afterElems, hi]
          | panic =>
            simp only [hi, Except.map, Except.ok.injEq] at hs
            rw [← hs, hc]
            simp [afterElems, hi]
      · have hne : info.name.expanded ≠ f.name.expanded := by
          intro he
          unfold Hears at hD
          simp only [hk] at hD
          rw [he, hD] at h1
          cases h1
          exact hqp rfl
        rw [if_neg hne]
        obtain ⟨nm, kd, df⟩ := g
        simp only at hgk
        subst hgk
        obtain ⟨dc, rfl⟩ := hok
        simp only [hg, hd] at hs
        cases dc with
        | some a =>
          simp only [Option.isSome_some, if_true, give_map, Except.map, Except.ok.injEq] at hs
          rw [← hs, List.getElem?_set_ne hqp]; exact hc
        | none =>
          rw [if_neg (by simp)] at hs
          simp only [give_map] at hs
          cases hi : give s (gi.init info) with
          | ok a =>
            simp only [hi, write, Except.map, Except.ok.injEq] at hs
            rw [← hs, List.getElem?_set_ne hqp]; exact hc
          | err e =>
            simp only [hi, Except.map, Except.ok.injEq] at hs
            rw [← hs]; exact hc
          | panic =>
            simp only [hi, Except.map, Except.ok.injEq] at hs
            rw [← hs]; exact hc
    · rw [h1] at hs
      rw [if_neg (fun he => h1' f (List.mem_of_getElem? hf) impl hk he.symm)]
      simp only at hs
      cases hda : delegateElement fields info (flatPos fields 0) fs with
      | error e => rw [hda] at hs; exact nomatch hs
      | ok o =>
        rw [hda] at hs
        rcases delegateElement_passed info s [] fields [] fs rfl o hda (Shaped.of_cellsOk h) with
          ⟨fs'', h2, -, -, h3⟩ | ⟨a, h2, h3⟩
        · subst h2
          simp only [List.nil_append, Except.ok.injEq] at hs
          rw [← hs]
          exact (h3 p f hf hnf).trans hc
        · subst h2
          simp only at hs
          cases hga : give s a with
          | error e => rw [hga] at hs; exact nomatch hs
          | ok y =>
            rw [hga] at hs
            obtain ⟨gs, x⟩ := y
            simp only [Except.map, Except.ok.injEq] at hs
            subst hs
            obtain ⟨fs'', h4, -, -, h5⟩ := h3 gs x hga
            rw [h4]
            exact (h5 p f hf hnf).trans hc

theorem structStep_attr {fields : List (OField σ τ α)} (hF : FlatSound fields) {fs fs' : List (OCell τ α)}
    (h : CellsOk fields fs) (c : Call σ) (hs : step (structRaw fields) fs c = .ok fs') {p : Nat} {f : OField σ τ α}
    (hf : fields[p]? = some f) (hD : Hears fields p f) {impl : AttrImpl α} (hk : f.kind = .attribute impl) {cell : Option α}
    (hc : fs[p]? = some (.plain cell.isSome cell)) :
    fs'[p]? = some (.plain (attrStep f impl cell c).isSome (attrStep f impl cell c)) := by
  have hnf : ∀ raw, f.kind ≠ .flatten raw := by rw [hk]; exact nofun
  cases c with
  | attr n v =>
    change (structAttribute fields fs n v).map Prod.fst = .ok fs' at hs
    unfold structAttribute at hs
    unfold attrStep
    simp only
    rcases lookup_attr fields n with ⟨q, g, gi, h1, hg, hgk, hgn⟩ | ⟨h1, h1'⟩
    · rw [h1] at hs
      obtain ⟨d, hd, hok⟩ := h.get hg
      by_cases hqp : q = p
      · subst hqp
        rw [hf] at hg
        cases hg
        rw [hk] at hgk
        cases hgk
        rw [if_pos hgn.symm]
        have hlt : q < fs.length := (List.getElem?_eq_some_iff.mp hc).1
        rw [hc] at hd
        cases hd
        obtain ⟨nm, kd, df⟩ := f
        simp only at hk
        subst hk
        simp only [hf, hc] at hs
        cases cell with
        | some a =>
          simp only [Option.isSome_some, if_true, Except.map, Except.ok.injEq] at hs
          rw [← hs, hc]
          rfl
        | none =>
          rw [if_neg (by simp)] at hs
          cases hi : impl.init v with
          | ok a =>
            simp only [hi, write, Except.map, Except.ok.injEq] at hs
            rw [← hs, List.getElem?_set_self hlt]
            simp [afterAttrs, hi]
          | err e =>
            simp only [hi, Except.map, Except.ok.injEq] at hs
            rw [← hs, hc]
            simp [afterAttrs, hi]
          | panic =>
            simp only [hi, Except.map, Except.ok.injEq] at hs
            rw [← hs, hc]
            simp [afterAttrs, hi]
      · have hne : n ≠ f.name.expanded := by
          intro he
          unfold Hears at hD
          simp only [hk] at hD
          rw [he, hD] at h1
          cases h1
          exact hqp rfl
        rw [if_neg hne]
        obtain ⟨nm, kd, df⟩ := g
        simp only at hgk
        subst hgk
        obtain ⟨dc, rfl⟩ := hok
        simp only [hg, hd] at hs
        cases dc with
        | some a =>
          simp only [Option.isSome_some, if_true, Except.map, Except.ok.injEq] at hs
          rw [← hs]; exact hc
        | none =>
          rw [if_neg (by simp)] at hs
          cases hi : gi.init v with
          | ok a =>
            simp only [hi, write, Except.map, Except.ok.injEq] at hs
            rw [← hs, List.getElem?_set_ne hqp]; exact hc
          | err e =>
            simp only [hi, Except.map, Except.ok.injEq] at hs
            rw [← hs]; exact hc
          | panic =>
            simp only [hi, Except.map, Except.ok.injEq] at hs
            rw [← hs]; exact hc
    · rw [h1] at hs
      rw [if_neg (fun he => h1' f (List.mem_of_getElem? hf) impl hk he.symm)]
      simp only at hs
      cases hda : delegateAttribute fields n (flatPos fields 0) fs v with
      | error e => rw [hda] at hs; exact nomatch hs
      | ok y =>
        rw [hda] at hs
        obtain ⟨gs, x⟩ := y
        simp only [Except.map, Except.ok.injEq] at hs
        subst hs
        obtain ⟨fs'', r, h2, -, -, -, h3⟩ := delegateAttribute_passed n [] fields [] fs rfl v gs x hda (Shaped.of_cellsOk h)
        rw [h2]
        exact (h3 p f hf hnf).trans hc
  | chars v pos =>
    change (delegateCharacters fields pos (flatPos fields 0) fs v).map Prod.fst = .ok fs' at hs
    show fs'[p]? = some (.plain cell.isSome cell)
    cases hda : delegateCharacters fields pos (flatPos fields 0) fs v with
    | error e => rw [hda] at hs; exact nomatch hs
    | ok y =>
      rw [hda] at hs
      obtain ⟨gs, x⟩ := y
      simp only [Except.map, Except.ok.injEq] at hs
      subst hs
      obtain ⟨fs'', r, h2, -, -, -, h3⟩ := delegateCharacters_passed pos [] fields [] fs rfl v gs x hda (Shaped.of_cellsOk h)
      rw [h2]
      exact (h3 p f hf hnf).trans hc
  | elem info s =>
    unfold step at hs
    simp only at hs
    rw [show (structRaw fields).element = structElement fields from rfl] at hs
    unfold structElement at hs
    show fs'[p]? = some (.plain cell.isSome cell)
    rcases lookup_elem fields info.name.expanded with ⟨q, g, gi, h1, hg, hgk, hgn⟩ | ⟨h1, h1'⟩
    · rw [h1] at hs
      obtain ⟨d, hd, hok⟩ := h.get hg
      have hqp : q ≠ p := by
        rintro rfl
        rw [hf] at hg
        cases hg
        rw [hk] at hgk
        exact nomatch hgk
      obtain ⟨nm, kd, df⟩ := g
      simp only at hgk
      subst hgk
      obtain ⟨dc, rfl⟩ := hok
      simp only [hg, hd] at hs
      cases dc with
      | some a =>
        simp only [Option.isSome_some, if_true, give_map, Except.map, Except.ok.injEq] at hs
        rw [← hs, List.getElem?_set_ne hqp]; exact hc
      | none =>
        rw [if_neg (by simp)] at hs
        simp only [give_map] at hs
        cases hi : give s (gi.init info) with
        | ok a =>
          simp only [hi, write, Except.map, Except.ok.injEq] at hs
          rw [← hs, List.getElem?_set_ne hqp]; exact hc
        | err e =>
          simp only [hi, Except.map, Except.ok.injEq] at hs
          rw [← hs]; exact hc
        | panic =>
          simp only [hi, Except.map, Except.ok.injEq] at hs
          rw [← hs]; exact hc
    · rw [h1] at hs
      simp only at hs
      cases hda : delegateElement fields info (flatPos fields 0) fs with
      | error e => rw [hda] at hs; exact nomatch hs
      | ok o =>
        rw [hda] at hs
        rcases delegateElement_passed info s [] fields [] fs rfl o hda (Shaped.of_cellsOk h) with
          ⟨fs'', h2, -, -, h3⟩ | ⟨a, h2, h3⟩
        · subst h2
          simp only [List.nil_append, Except.ok.injEq] at hs
          rw [← hs]
          exact (h3 p f hf hnf).trans hc
        · subst h2
          simp only at hs
          cases hga : give s a with
          | error e => rw [hga] at hs; exact nomatch hs
          | ok y =>
            rw [hga] at hs
            obtain ⟨gs, x⟩ := y
            simp only [Except.map, Except.ok.injEq] at hs
            subst hs
            obtain ⟨fs'', h4, -, -, h5⟩ := h3 gs x hga
            rw [h4]
            exact (h5 p f hf hnf).trans hc

theorem afterElems_cons (impl : FieldImpl σ α) (c : Option α) (x : ElemInfo × Supply σ) (l : List (ElemInfo × Supply σ)) :
    afterElems impl c (x :: l) = afterElems impl (afterElems impl c [x]) l := by
  obtain ⟨info, s⟩ := x
  cases c with
  | none =>
    rw [afterElems, afterElems]
    cases give s (impl.init info) <;> rfl
  | some v => rfl

theorem afterAttrs_cons (impl : AttrImpl α) (v : String) (l : List String) :
    afterAttrs impl (v :: l) = (afterAttrs impl [v]).or (afterAttrs impl l) := by
  rw [afterAttrs, afterAttrs]
  cases impl.init v <;> rfl

theorem run_elem {fields : List (OField σ τ α)} (hF : FlatSound fields) {p : Nat} {f : OField σ τ α}
    (hf : fields[p]? = some f) (hD : Hears fields p f) {impl : FieldImpl σ α} (hk : f.kind = .element impl) (h : List (Call σ)) (fs fs' : List (OCell τ α))
    (hok : CellsOk fields fs) (hr : run (structRaw fields) h fs = .ok fs') (cell : Option α)
    (hc : fs[p]? = some (.plain cell.isSome cell)) :
    fs'[p]? = some (.plain (afterElems impl cell (elems f.name.expanded h)).isSome (afterElems impl cell (elems f.name.expanded h))) := by
  induction h generalizing fs cell with
  | nil =>
    cases hr
    simpa [elems, afterElems] using hc
  | cons c h ih =>
    obtain ⟨fs1, h1, h2⟩ := structStep_ok hF fs c hok
    unfold run at hr
    rw [h1] at hr
    have := ih fs1 h2 hr _ (structStep_elem hF hok c h1 hf hD hk hc)
    have e : afterElems impl cell (elems f.name.expanded (c :: h)) =
        afterElems impl (elemStep f impl cell c) (elems f.name.expanded h) := by
      cases c with
      | attr n v => rfl
      | chars v pos => rfl
      | elem info s =>
        unfold elemStep
        rw [elems]
        by_cases hn : info.name.expanded = f.name.expanded
        · simp only [if_pos hn]
          exact afterElems_cons ..
        · simp only [if_neg hn]
    rw [e]
    exact this

theorem run_attr {fields : List (OField σ τ α)} (hF : FlatSound fields) {p : Nat} {f : OField σ τ α}
    (hf : fields[p]? = some f) (hD : Hears fields p f) {impl : AttrImpl α} (hk : f.kind = .attribute impl) (h : List (Call σ)) (fs fs' : List (OCell τ α))
    (hok : CellsOk fields fs) (hr : run (structRaw fields) h fs = .ok fs') (cell : Option α)
    (hc : fs[p]? = some (.plain cell.isSome cell)) :
    ∃ c : Option α, fs'[p]? = some (.plain c.isSome c) ∧ c = cell.or (afterAttrs impl (attrs f.name.expanded h)) := by
  induction h generalizing fs cell with
  | nil =>
    cases hr
    refine ⟨cell, hc, ?_⟩
    cases cell <;> rfl
  | cons c h ih =>
    obtain ⟨fs1, h1, h2⟩ := structStep_ok hF fs c hok
    unfold run at hr
    rw [h1] at hr
    obtain ⟨d, h3, h4⟩ := ih fs1 h2 hr _ (structStep_attr hF hok c h1 hf hD hk hc)
    refine ⟨d, h3, h4.trans ?_⟩
    cases c with
    | elem info s => rfl
    | chars v pos => rfl
    | attr n v =>
      unfold attrStep
      rw [attrs]
      by_cases hn : n = f.name.expanded
      · simp only [if_pos hn]
        rw [Option.or_assoc, ← afterAttrs_cons]
      · simp only [if_neg hn]

theorem newCells_plain {fields : List (OField σ τ α)} {p : Nat} {f : OField σ τ α}
    (hf : fields[p]? = some f) (hk : ∀ raw, f.kind ≠ .flatten raw) :
    (structRaw fields).new[p]? = some (.plain (none : Option α).isSome none) := by
  show (fields.map newCell)[p]? = _
  rw [List.getElem?_map, hf]
  unfold newCell
  cases hk' : f.kind with
  | flatten raw => exact absurd hk' (hk raw)
  | element i => simp [hk']
  | «attribute» i => simp [hk']

theorem run_found_heard {fields : List (OField σ τ α)} (hF : FlatSound fields) {p : Nat} {f : OField σ τ α}
    (hf : fields[p]? = some f) (hD : Hears fields p f) (hk : ∀ raw, f.kind ≠ .flatten raw) (h : List (Call σ)) (fs : List (OCell τ α))
    (hr : run (structRaw fields) h (structRaw fields).new = .ok fs) :
    fs[p]? = some (.plain (found f h).isSome (found f h)) := by
  unfold found
  cases hk' : f.kind with
  | flatten raw => exact absurd hk' (hk raw)
  | element impl => exact run_elem hF hf hD hk' h _ fs (cellsOk_new fields) hr none (newCells_plain hf hk)
  | «attribute» impl =>
    obtain ⟨c, h1, h2⟩ := run_attr hF hf hD hk' h _ fs (cellsOk_new fields) hr none (newCells_plain hf hk)
    rw [h1, h2, Option.none_or]

theorem run_found {fields : List (OField σ τ α)} (hF : FlatSound fields) (hD : Distinct fields) {p : Nat} {f : OField σ τ α}
    (hf : fields[p]? = some f) (hk : ∀ raw, f.kind ≠ .flatten raw) (h : List (Call σ)) (fs : List (OCell τ α))
    (hr : run (structRaw fields) h (structRaw fields).new = .ok fs) :
    fs[p]? = some (.plain (found f h).isSome (found f h)) := run_found_heard hF hf (Distinct.hears hD hf hk) hk h fs hr

/-! ## `finalize` -/

theorem finalizeCell_plain {f : OField σ τ α} (hk : ∀ raw, f.kind ≠ .flatten raw) (c : Option α) :
    ∃ c' r, finalizeCell f (.plain c.isSome c) = .ok (.plain c.isSome c', r) ∧
      (∀ a, c = some a → c' = some a ∧ r = .ok ()) ∧
      (c = none → ∀ a, absent f = .ok a → c' = some a ∧ r = .ok ()) ∧
      (c = none → ∀ e, absent f = .err e → r = .err e) ∧
      (c = none → absent f = .panic → r = .panic) := by
  obtain ⟨nm, kd, df⟩ := f
  cases kd with
  | flatten raw => exact absurd rfl (hk raw)
  | element impl =>
    unfold finalizeCell finalizeCell.plain absent
    cases c with
    | some a => exact ⟨_, _, rfl, fun b hb => ⟨hb, rfl⟩, nofun, nofun, nofun⟩
    | none =>
      simp only [Option.isSome_none]
      rw [if_neg (by simp)]
      cases df with
      | none =>
        simp only
        cases impl.missing (DName.expanded nm) with
        | ok a => exact ⟨_, _, rfl, nofun, fun _ b hb => ⟨by cases hb; rfl, rfl⟩, nofun, nofun⟩
        | err e => exact ⟨_, _, rfl, nofun, nofun, fun _ e' he => by cases he; rfl, nofun⟩
        | panic => exact ⟨_, _, rfl, nofun, nofun, nofun, fun _ _ => rfl⟩
      | some d =>
        cases d with
        | ok a => exact ⟨_, _, rfl, nofun, fun _ b hb => ⟨by cases hb; rfl, rfl⟩, nofun, nofun⟩
        | err e => exact nomatch e
        | panic => exact ⟨_, _, rfl, nofun, nofun, nofun, fun _ _ => rfl⟩
  | «attribute» impl =>
    unfold finalizeCell finalizeCell.plain absent
    cases c with
    | some a => exact ⟨_, _, rfl, fun b hb => ⟨hb, rfl⟩, nofun, nofun, nofun⟩
    | none =>
      simp only [Option.isSome_none]
      rw [if_neg (by simp)]
      cases df with
      | none =>
        simp only
        cases impl.missing (DName.expanded nm) with
        | ok a => exact ⟨_, _, rfl, nofun, fun _ b hb => ⟨by cases hb; rfl, rfl⟩, nofun, nofun⟩
        | err e => exact ⟨_, _, rfl, nofun, nofun, fun _ e' he => by cases he; rfl, nofun⟩
        | panic => exact ⟨_, _, rfl, nofun, nofun, nofun, fun _ _ => rfl⟩
      | some d =>
        cases d with
        | ok a => exact ⟨_, _, rfl, nofun, fun _ b hb => ⟨by cases hb; rfl, rfl⟩, nofun, nofun⟩
        | err e => exact nomatch e
        | panic => exact ⟨_, _, rfl, nofun, nofun, nofun, fun _ _ => rfl⟩

theorem cellOut_plain {f : OField σ τ α} (b : Bool) (c : Option α) : cellOut f (.plain b c) = c := by
  unfold cellOut
  cases f.kind <;> rfl

theorem finalizeCells_get {fields : List (OField σ τ α)} {fs fs' : List (OCell τ α)}
    (h : finalizeCells fields fs = .ok (fs', .ok ())) {vs : List α} (hv : structOut fields fs' = some vs) {p : Nat}
    {f : OField σ τ α} (hf : fields[p]? = some f) (hk : ∀ raw, f.kind ≠ .flatten raw) {c : Option α}
    (hc : fs[p]? = some (.plain c.isSome c)) :
    ∃ v, vs[p]? = some v ∧ (c = some v ∨ c = none ∧ absent f = .ok v) := by
  induction fields generalizing fs fs' vs p with
  | nil => simp at hf
  | cons g fields ih =>
    cases fs with
    | nil => simp at hc
    | cons d fs =>
      unfold finalizeCells at h
      cases hg : finalizeCell g d with
      | error e => rw [hg] at h; exact nomatch h
      | ok y =>
        rw [hg] at h
        obtain ⟨d', r⟩ := y
        cases r with
        | err e => simp at h
        | panic => simp at h
        | ok u =>
          simp only at h
          cases hr : finalizeCells fields fs with
          | error e => rw [hr] at h; exact nomatch h
          | ok z =>
            rw [hr] at h
            obtain ⟨ds, r⟩ := z
            simp only [Except.map, Except.ok.injEq, Prod.mk.injEq] at h
            obtain ⟨rfl, rfl⟩ := h
            rw [structOut] at hv
            cases ho : cellOut g d' with
            | none => rw [ho] at hv; simp at hv
            | some v =>
              cases hos : structOut fields ds with
              | none => rw [ho, hos] at hv; simp at hv
              | some ws =>
                rw [ho, hos] at hv
                simp only [Option.some.injEq] at hv
                subst hv
                cases p with
                | succ p => simpa using ih hr hos (by simpa using hf) (by simpa using hc)
                | zero =>
                  simp only [List.getElem?_cons_zero, Option.some.injEq] at hf hc
                  subst hf hc
                  obtain ⟨c', r', h1, h2, h3, h4, h5⟩ := finalizeCell_plain hk c
                  rw [hg] at h1
                  simp only [Except.ok.injEq, Prod.mk.injEq] at h1
                  obtain ⟨rfl, rfl⟩ := h1
                  rw [cellOut_plain] at ho
                  refine ⟨v, rfl, ?_⟩
                  cases c with
                  | some a =>
                    have := (h2 a rfl).1
                    rw [ho] at this
                    exact .inl this.symm
                  | none =>
                    right
                    refine ⟨rfl, ?_⟩
                    cases ha : absent g with
                    | ok a =>
                      have := (h3 rfl a ha).1
                      rw [ho] at this
                      cases this
                      rfl
                    | err e => exact nomatch h4 rfl e ha
                    | panic => exact nomatch h5 rfl ha

/-- The first field that keeps a struct from being finalized. -/
theorem finalizeCells_stop {fields : List (OField σ τ α)} (hF : FlatSound fields) {fs fs' : List (OCell τ α)} (hok : CellsOk fields fs)
    {r : Ret VErr Unit} (h : finalizeCells fields fs = .ok (fs', r)) (hr : r ≠ .ok ()) :
    ∃ p f c c', fields[p]? = some f ∧ fs[p]? = some c ∧ finalizeCell f c = .ok (c', r) ∧
      ∀ (q : Nat) g d, q < p → fields[q]? = some g → fs[q]? = some d → ∃ d', finalizeCell g d = .ok (d', .ok ()) := by
  induction fields generalizing fs fs' with
  | nil =>
    simp only [finalizeCells, Except.ok.injEq, Prod.mk.injEq] at h
    exact absurd h.2.symm hr
  | cons g fields ih =>
    cases fs with
    | nil => exact hok.elim
    | cons d fs =>
      obtain ⟨d', r', h1, h2⟩ := finalizeCell_ok (fun raw hk => hF g (by simp) raw hk) hok.1
      unfold finalizeCells at h
      rw [h1] at h
      have here : ∀ r'', r' = r'' → (Except.ok (d' :: fs, r'') : Except Fault _) = .ok (fs', r) → ∃ p f c c', (g :: fields)[p]? = some f ∧ (d :: fs)[p]? = some c ∧ finalizeCell f c = .ok (c', r) ∧
          ∀ (q : Nat) g' d'', q < p → (g :: fields)[q]? = some g' → (d :: fs)[q]? = some d'' → ∃ d', finalizeCell g' d'' = .ok (d', .ok ()) := by
        rintro r'' rfl he
        simp only [Except.ok.injEq, Prod.mk.injEq] at he
        exact ⟨0, g, d, d', rfl, rfl, by rw [h1, he.2], fun q _ _ hq => by omega⟩
      cases r' with
      | err e => exact here _ rfl h
      | panic => exact here _ rfl h
      | ok u =>
        simp only at h
        cases hrest : finalizeCells fields fs with
        | error e => rw [hrest] at h; exact nomatch h
        | ok z =>
          rw [hrest] at h
          obtain ⟨ds, r'⟩ := z
          simp only [Except.map, Except.ok.injEq, Prod.mk.injEq] at h
          obtain ⟨rfl, rfl⟩ := h
          obtain ⟨p, f, c, c', h3, h4, h5, h6⟩ := ih (fun g hg => hF g (by simp [hg])) hok.2 hrest
          refine ⟨p + 1, f, c, c', by simpa using h3, by simpa using h4, h5, ?_⟩
          intro q g' d'' hq hg' hd''
          cases q with
          | zero =>
            simp only [List.getElem?_cons_zero, Option.some.injEq] at hg' hd''
            subst hg' hd''
            exact ⟨d', h1⟩
          | succ q => exact h6 q g' d'' (by omega) (by simpa using hg') (by simpa using hd'')

end SX.Open
