import Verif.Proof.GenText

/-
The generated code keeps to the rules of Rust.
-/
namespace SX.Gen
open SX.Open SX.Spec SX.Spec.Gen

variable {σ τ α : Type}

theorem last_ne {a b : String} {x y : Char} (ha : a.toList.getLast? = some x) (hb : b.toList.getLast? = some y) (h : x ≠ y) : a ≠ b := by
  intro e
  subst e
  rw [ha] at hb
  exact h (Option.some.inj hb)

theorem present_last (n : String) : (presentName n).toList.getLast? = some 't' := by
  unfold presentName
  rw [String.toList_append, show "_present".toList = ['_', 'p', 'r', 'e', 's', 'e', 'n', 't'] from rfl]
  simp [List.getLast?_append]

theorem visitor_last (n : String) : (visitorName n).toList.getLast? = some 'r' := by
  unfold visitorName
  rw [String.toList_append, show "_visitor".toList = ['_', 'v', 'i', 's', 'i', 't', 'o', 'r'] from rfl]
  simp [List.getLast?_append]

theorem rowwise_map {β γ δ : Type} {R : γ → δ → Prop} (f : β → γ) (g : β → δ) : ∀ l : List β, (∀ b ∈ l, R (f b) (g b)) → Rowwise R (l.map f) (l.map g)
  | [], _ => .nil
  | b :: l, h => .cons (h b List.mem_cons_self) (rowwise_map f g l fun c hc => h c (List.mem_cons_of_mem _ hc))

theorem present_ne_out (n : String) : presentName n ≠ "out" := by
  intro h
  have := congrArg String.length h
  unfold presentName at this
  simp [String.length_append] at this
  have h2 : "_present".length = 8 := rfl
  have h3 : "out".length = 3 := rfl
  omega

section
variable {types : String → TypeImpl σ τ α} {s : GStruct} {code : StructCode} (G : Good types s)
  (hn : (s.fields.map fun f => unraw f.ident).Nodup) (hc : structCode s = .ok code)
include G hn hc

theorem defs_mem {f : GField} (hf : f ∈ s.fields) : (visName f, if f.mode = .flatten then VisTy.visitor f.ty else VisTy.bool) ∈ code.defs := by
  obtain ⟨fin, _, he⟩ := code_eq G hn hc
  have : code.defs = visitorFieldDefinitions s := by rw [he]
  rw [this, visName_defs s G.noText]
  exact List.mem_map_of_mem (f := fun f => (visName f, if f.mode = .flatten then VisTy.visitor f.ty else VisTy.bool)) hf

theorem flag_mem {f : GField} (hf : f ∈ s.fields) (hm : f.mode ≠ .flatten) : (presentName f.ident, .bool) ∈ code.defs := by
  have := defs_mem G hn hc hf
  rwa [visName_present hm, if_neg hm] at this

theorem visitor_mem {f : GField} (hf : f ∈ s.fields) (hm : f.mode = .flatten) : (visitorName f.ident, .visitor f.ty) ∈ code.defs := by
  have := defs_mem G hn hc hf
  rwa [visName_visitor hm, if_pos hm] at this

theorem fall_ok : FallOk code.defs (if (flattenVisitors s).isEmpty then .back else .delegate (flattenVisitors s)) := by
  split
  · trivial
  · refine ⟨?_, fun n h => ?_⟩
    · have hv := visNames_nodup hn
      have : (flattenVisitors s) = (s.fields.filter fun f => decide (f.mode = .flatten)).map visName := by
        unfold flattenVisitors
        generalize s.fields = fs
        induction fs with
        | nil => rfl
        | cons f fs ih =>
          by_cases hm : f.mode = .flatten
          · simp [hm, ih, visName_visitor hm]
          · simp [hm, ih]
      rw [this]
      exact hv.sublist (List.filter_sublist.map _)
    · obtain ⟨f, hf, hx⟩ := List.mem_filterMap.mp h
      by_cases hm : f.mode = .flatten
      · simp only [hm, if_true, Option.some.injEq] at hx
        exact ⟨f.ty, hx ▸ visitor_mem G hn hc hf hm⟩
      · simp [hm] at hx

omit hn hc in
theorem elementArms_mem {a : ElemArm} : ∀ (ps : List Nat) (i : Nat), (∀ p ∈ ps, p ∈ s.sortedElements) → a ∈ elementArms s ps i →
    ∃ f ∈ s.fields, f.mode ≠ .flatten ∧ (a.guard = some (presentName f.ident) ∧ a.body = [.update f.ident] ∨
      a.guard = none ∧ a.body = [.writeInit f.ident, .set (presentName f.ident)])
  | [], _, _, h => by simp [elementArms] at h
  | p :: ps, i, hp, h => by
    obtain ⟨j, hj⟩ := List.getElem?_of_mem (hp p List.mem_cons_self)
    obtain ⟨f, hf, hm⟩ := G.elem j p hj
    have hfm := List.mem_of_getElem? hf
    have hnf : f.mode ≠ .flatten := by rw [hm]; nofun
    simp only [elementArms, hf, List.mem_cons] at h
    rcases h with rfl | rfl | h
    · exact ⟨f, hfm, hnf, .inl ⟨rfl, rfl⟩⟩
    · exact ⟨f, hfm, hnf, .inr ⟨rfl, rfl⟩⟩
    · exact elementArms_mem ps (i + 1) (fun q hq => hp q (List.mem_cons_of_mem _ hq)) h

omit hn hc in
theorem attributeArms_mem {a : AttrArm} : ∀ (ps : List Nat) (i : Nat), (∀ p ∈ ps, p ∈ s.sortedAttributes) → a ∈ attributeArms s ps i →
    ∃ f ∈ s.fields, f.mode ≠ .flatten ∧ (a.guard = some (presentName f.ident) ∧ a.body = [] ∨
      a.guard = none ∧ a.body = [.writeInit f.ident, .set (presentName f.ident)])
  | [], _, _, h => by simp [attributeArms] at h
  | p :: ps, i, hp, h => by
    obtain ⟨j, hj⟩ := List.getElem?_of_mem (hp p List.mem_cons_self)
    obtain ⟨f, hf, hm⟩ := G.attr j p hj
    have hfm := List.mem_of_getElem? hf
    have hnf : f.mode ≠ .flatten := by rw [hm]; nofun
    simp only [attributeArms, hf, List.mem_cons] at h
    rcases h with rfl | rfl | h
    · exact ⟨f, hfm, hnf, .inl ⟨rfl, rfl⟩⟩
    · exact ⟨f, hfm, hnf, .inr ⟨rfl, rfl⟩⟩
    · exact attributeArms_mem ps (i + 1) (fun q hq => hp q (List.mem_cons_of_mem _ hq)) h

omit G hn hc in
theorem finalizeStmts_mem {st : FinStmt} : ∀ (fs : List GField) (l : List FinStmt), finalizeStmts fs = .ok l → st ∈ l →
    ∃ f ∈ fs, finalizeStmt f = .ok st
  | [], l, h, hm => by
    simp only [finalizeStmts, Except.ok.injEq] at h
    subst h; simp at hm
  | f :: fs, l, h, hm => by
    simp only [finalizeStmts] at h
    cases hf : finalizeStmt f with
    | error e => simp [hf] at h
    | ok s0 =>
      simp only [hf] at h
      cases hr : finalizeStmts fs with
      | error e => simp [hr, Except.map] at h
      | ok l0 =>
        simp only [hr, Except.map, Except.ok.injEq] at h
        subst h
        rcases List.mem_cons.mp hm with rfl | hm
        · exact ⟨f, List.mem_cons_self, hf⟩
        · obtain ⟨g, hg, hgs⟩ := finalizeStmts_mem fs l0 hr hm
          exact ⟨g, List.mem_cons_of_mem _ hg, hgs⟩

omit G hn hc in
theorem movedVisitors_eq : ∀ (fs : List GField) (l : List FinStmt), finalizeStmts fs = .ok l →
    movedVisitors l = (fs.filterMap fun f => if f.mode = .flatten then some (visitorName f.ident) else none)
  | [], l, h => by
    simp only [finalizeStmts, Except.ok.injEq] at h
    subst h; rfl
  | f :: fs, l, h => by
    simp only [finalizeStmts] at h
    cases hf : finalizeStmt f with
    | error e => simp [hf] at h
    | ok s0 =>
      simp only [hf] at h
      cases hr : finalizeStmts fs with
      | error e => simp [hr, Except.map] at h
      | ok l0 =>
        simp only [hr, Except.map, Except.ok.injEq] at h
        subst h
        have ih := movedVisitors_eq fs l0 hr
        unfold movedVisitors at ih ⊢
        unfold finalizeStmt at hf
        cases hm : f.mode <;> simp only [hm, Except.ok.injEq] at hf
        · subst hf; simp [hm, ih]
        · subst hf; simp [hm, ih]
        · cases hf
        · subst hf; simp [hm, ih]

theorem compiles : Compiles (s.fields.map fun f => (f.ident, f.ty)) code := by
  obtain ⟨fin, hfin, he⟩ := code_eq G hn hc
  have hdefs : code.defs = visitorFieldDefinitions s := by rw [he]
  have hd := visName_defs s G.noText
  have field : ∀ {f : GField}, f ∈ s.fields → (f.ident, f.ty) ∈ s.fields.map fun f => (f.ident, f.ty) :=
    fun hf => List.mem_map_of_mem (f := fun f : GField => (f.ident, f.ty)) hf
  have hfall := fall_ok G hn hc
  constructor
  · rw [hdefs, hd]
    simp only [List.map_map]
    have hne : ∀ (k : String) (c : Char), k.toList.getLast? = some c → c ≠ 't' ∨ k = "out" → c ≠ 'r' →
        k ∉ s.fields.map (Prod.fst ∘ fun f => (visName f, if f.mode = .flatten then VisTy.visitor f.ty else VisTy.bool)) := by
      intro k c hk h1 h2 hm
      obtain ⟨f, _, hf⟩ := List.mem_map.mp hm
      simp only [Function.comp_apply] at hf
      by_cases hfl : f.mode = .flatten
      · rw [visName_visitor hfl] at hf
        exact last_ne (visitor_last f.ident) hk (Ne.symm h2) hf
      · rw [visName_present hfl] at hf
        rcases h1 with h1 | h1
        · exact last_ne (present_last f.ident) hk (Ne.symm h1) hf
        · subst h1
          exact present_ne_out _ hf
    refine List.nodup_cons.mpr ⟨?_, List.nodup_cons.mpr ⟨hne "_phantom" 'm' rfl (by decide) (by decide), ?_⟩⟩
    · intro h
      rcases List.mem_cons.mp h with h | h
      · exact absurd h (by decide)
      · exact hne "out" 't' rfl (.inr rfl) (by decide) h
    · exact visNames_nodup hn
  · have hi : code.inits = visitorInitializers s := by rw [he]
    rw [hdefs, hi, hd]
    unfold visitorInitializers
    refine rowwise_map _ _ _ fun f hf => ?_
    have := G.noText f hf
    cases hm : f.mode with
    | flatten => exact ⟨(visName_visitor hm).symm, by simp only [if_true]; exact ⟨rfl, field hf⟩⟩
    | text => exact absurd hm this
    | element i => exact ⟨(visName_present (by rw [hm]; nofun)).symm, by simp [InitOk]⟩
    | «attribute» i => exact ⟨(visName_present (by rw [hm]; nofun)).symm, by simp [InitOk]⟩
  · intro a ha
    have ha' : a ∈ elementArms s s.sortedElements 0 := by rw [he] at ha; exact ha
    obtain ⟨f, hf, hm, h⟩ := elementArms_mem G _ _ (fun _ h => h) ha'
    rcases h with ⟨h1, h2⟩ | ⟨h1, h2⟩
    · rw [h1, h2]
      refine ⟨⟨⟨[], .update f.ident, [], rfl, by simp, nofun⟩, by simp, ?_⟩, ?_⟩
      · intro n h
        simp at h
        exact ⟨f.ty, h ▸ field hf⟩
      · intro n h
        simp at h
        exact h ▸ flag_mem G hn hc hf hm
    · rw [h1, h2]
      refine ⟨⟨⟨[], .writeInit f.ident, [.set (presentName f.ident)], rfl, by simp, nofun⟩, ?_, ?_⟩, by simp⟩
      · intro n h
        simp at h
        exact h ▸ flag_mem G hn hc hf hm
      · intro n h
        simp at h
        exact ⟨f.ty, h ▸ field hf⟩
  · rw [show code.elementFall = _ from by rw [he]]; exact hfall
  · intro a ha
    have ha' : a ∈ attributeArms s s.sortedAttributes 0 := by rw [he] at ha; exact ha
    obtain ⟨f, hf, hm, h⟩ := attributeArms_mem G _ _ (fun _ h => h) ha'
    rcases h with ⟨h1, h2⟩ | ⟨h1, h2⟩
    · rw [h1, h2]
      refine ⟨⟨.nil, by simp, by simp⟩, ?_⟩
      intro n h
      simp at h
      exact h ▸ flag_mem G hn hc hf hm
    · rw [h1, h2]
      refine ⟨⟨by simp, ?_, ?_⟩, by simp⟩
      · intro n h
        simp at h
        exact h ▸ flag_mem G hn hc hf hm
      · intro n h
        simp at h
        exact ⟨f.ty, h ▸ field hf⟩
  · rw [show code.attributeFall = _ from by rw [he]]; exact hfall
  · intro x hx
    have hx' : x ∈ (if !(flattenVisitors s).isEmpty then some (Chars.delegate (flattenVisitors s)) else none : Option Chars) := by rw [he] at hx; exact hx
    by_cases hv : (flattenVisitors s).isEmpty
    · simp [hv] at hx'
    · simp [hv] at hx' hfall
      subst hx'
      exact hfall
  · intro st hst
    have hst' : st ∈ fin := by rw [he] at hst; exact hst
    obtain ⟨f, hf, hs⟩ := finalizeStmts_mem _ _ hfin hst'
    obtain ⟨p, hp⟩ := List.getElem?_of_mem hf
    unfold finalizeStmt at hs
    cases hm : f.mode with
    | text => exact absurd hm (G.noText f hf)
    | flatten =>
      simp only [hm, Except.ok.injEq] at hs
      subst hs
      refine ⟨visitor_mem G hn hc hf hm, ?_⟩
      intro t ht
      by_cases hdf : f.default <;> simp [hdf] at ht
      exact ht.symm
    | element i =>
      simp only [hm, Except.ok.injEq] at hs
      subst hs
      refine ⟨flag_mem G hn hc hf (by rw [hm]; nofun), f.ty, field hf, ?_⟩
      by_cases hdf : f.default
      · simp [hdf, ValOk]
      · simp only [hdf, Bool.false_eq_true, if_false]
        refine ⟨rfl, ?_⟩
        rw [show code.elements = elements s from by rw [he]]
        have := (List.getElem?_eq_some_iff.mp (G.elemBack p f i hp hm)).1
        simpa [elements] using this
    | «attribute» i =>
      simp only [hm, Except.ok.injEq] at hs
      subst hs
      refine ⟨flag_mem G hn hc hf (by rw [hm]; nofun), f.ty, field hf, ?_⟩
      by_cases hdf : f.default
      · simp [hdf, ValOk]
      · simp only [hdf, Bool.false_eq_true, if_false]
        refine ⟨rfl, ?_⟩
        rw [show code.attributes = attributes s from by rw [he]]
        have := (List.getElem?_eq_some_iff.mp (G.attrBack p f i hp hm)).1
        simpa [attributes] using this
  · rw [show code.finalize = fin from by rw [he], movedVisitors_eq _ _ hfin]
    have : FallOk code.defs (.delegate (flattenVisitors s)) := by
      by_cases hv : (flattenVisitors s).isEmpty
      · rw [List.isEmpty_iff.mp hv]; exact ⟨.nil, nofun⟩
      · simpa [hv] using hfall
    exact this.1

end

/-- Some implementations; which does not matter. -/
def someTypes (_ : String) : TypeImpl Unit Unit Unit where
  field := { init := fun _ => .done (.ok ()), update := fun _ _ => .done ((), .ok ()), missing := fun _ => .ok () }
  attr := { init := fun _ => .ok (), missing := fun _ => .ok () }
  raw := { new := (), attr := fun _ _ v => .ok ((), .ok (some v)), characters := fun _ s _ => .ok ((), .ok (some s)),
           element := fun _ _ => .ok (.back ()), finalize := fun _ _ => .ok ((), .ok ()), out := fun _ => some () }
  default := .ok ()

theorem struct_compiles (ident : String) (ty : String → String) (s : MStruct) (hT : ∀ f ∈ s.fields, f.mode ≠ .text)
    (hn : (s.fields.map fun f => unraw f.ident).Nodup) :
    ∃ code, structCode (GStruct.ofDescribed ident ty s) = .ok code ∧ Compiles (declOf ty s) code := by
  obtain ⟨G, hn', _, hd⟩ := ofDescribed_struct someTypes ident ty s hT hn
  obtain ⟨fin, hf⟩ := finalizeStmts_ok _ G.noText
  refine ⟨_, by unfold structCode; rw [hf], ?_⟩
  have := compiles G hn' (by unfold structCode; rw [hf])
  rw [hd] at this
  exact this

theorem finalizeStmts_panic : ∀ fs : List GField, (∃ f ∈ fs, f.mode = .text) → finalizeStmts fs = .error .panic
  | [], h => by simp at h
  | f :: fs, h => by
    by_cases hm : f.mode = .text
    · simp [finalizeStmts, finalizeStmt, hm]
    · have ih := finalizeStmts_panic fs (by
        obtain ⟨g, hg, hgm⟩ := h
        rcases List.mem_cons.mp hg with rfl | hg
        · exact absurd hgm hm
        · exact ⟨g, hg, hgm⟩)
      obtain ⟨st, hst⟩ : ∃ st, finalizeStmt f = .ok st := by
        unfold finalizeStmt
        cases h : f.mode <;> simp_all
      simp [finalizeStmts, hst, ih, Except.map]

theorem struct_panics (ident : String) (ty : String → String) (s : MStruct) (h : ∃ f ∈ s.fields, f.mode = .text) :
    structCode (GStruct.ofDescribed ident ty s) = .error .panic := by
  have hb := new_bare ident (s.fields.map (newField ty))
  have : ∃ f ∈ (GStruct.ofDescribed ident ty s).fields, f.mode = .text := by
    obtain ⟨m, hm, ht⟩ := h
    have hin : bare (newField ty m) ∈ ((s.fields.map (newField ty)).map bare) := List.mem_map_of_mem (List.mem_map_of_mem hm)
    rw [← hb] at hin
    obtain ⟨f, hf, he⟩ := List.mem_map.mp hin
    refine ⟨f, hf, (bare_mode he).1.mpr ?_⟩
    simp [newField, newMode, ht]
  unfold structCode
  rw [finalizeStmts_panic _ this]

/-! ### Enums -/

theorem initArms_variants : ∀ (vs : List GVariant) (i : Nat), (initArms vs i).map (fun a => (a.variant, a.payload)) = vs.map fun v => (v.ident, v.ty.isSome)
  | [], _ => rfl
  | v :: vs, i => by simp only [initArms, List.map_cons, initArms_variants vs (i + 1)]

theorem uninitArms_variants : ∀ (vs : List GVariant) (i : Nat), (uninitArms vs i).map (fun a => (a.variant, a.payload)) = vs.map fun v => (v.ident, v.ty.isSome)
  | [], _ => rfl
  | v :: vs, i => by simp only [uninitArms, List.map_cons, uninitArms_variants vs (i + 1)]

theorem uninitArms_indices : ∀ (vs : List GVariant) (i : Nat), (uninitArms vs i).map (fun a => a.index) = (List.range vs.length).map (i + ·)
  | [], _ => rfl
  | v :: vs, i => by
    simp only [uninitArms, List.map_cons, uninitArms_indices vs (i + 1), List.length_cons, List.range_succ_eq_map, List.map_map, Nat.add_zero]
    congr 1
    apply List.map_congr_left
    intro a _
    simp; omega

theorem initArms_indices : ∀ (vs : List GVariant) (i : Nat), (initArms vs i).map (fun a => a.index) = (List.range vs.length).map (i + ·)
  | [], _ => rfl
  | v :: vs, i => by
    simp only [initArms, List.map_cons, initArms_indices vs (i + 1), List.length_cons, List.range_succ_eq_map, List.map_map, Nat.add_zero]
    congr 1
    apply List.map_congr_left
    intro a _
    simp; omega

theorem variants_perm (ident : String) (ty : String → String) (e : MEnum) :
    ((GEnum.ofDescribed ident ty e).variants.map fun v => (v.ident, v.ty.isSome)).Perm (e.variants.map fun v => (v.ident, v.payload)) := by
  have h := (sortBy_perm (fun a b : GVariant => a.name.cmpOpt b.name) (e.variants.map (newVariant ty))).map (fun v => (v.ident, v.ty.isSome))
  refine h.trans ?_
  rw [List.map_map]
  apply List.Perm.of_eq
  apply List.map_congr_left
  intro v _
  simp only [Function.comp_apply, newVariant]
  cases v.payload <;> rfl

theorem rowwise_left {β γ : Type} {R : β → γ → Prop} {l : List β} {m : List γ} (h : Rowwise R l m) : ∀ b ∈ l, ∃ c ∈ m, R b c := by
  induction h with
  | nil => simp
  | cons hr _ ih =>
    intro b hb
    rcases List.mem_cons.mp hb with rfl | hb
    · exact ⟨_, List.mem_cons_self, hr⟩
    · obtain ⟨c, hc, hrc⟩ := ih b hb
      exact ⟨c, List.mem_cons_of_mem _ hc, hrc⟩

theorem rowwise_right {β γ : Type} {R : β → γ → Prop} {l : List β} {m : List γ} (h : Rowwise R l m) : ∀ c ∈ m, ∃ b ∈ l, R b c := by
  induction h with
  | nil => simp
  | cons hr _ ih =>
    intro c hc
    rcases List.mem_cons.mp hc with rfl | hc
    · exact ⟨_, List.mem_cons_self, hr⟩
    · obtain ⟨b, hb, hrc⟩ := ih c hc
      exact ⟨b, List.mem_cons_of_mem _ hb, hrc⟩

theorem ident_unique {vs : List DVariant} (hn : (vs.map fun v => v.ident).Nodup) {v w : DVariant} (hv : v ∈ vs) (hw : w ∈ vs) (h : v.ident = w.ident) :
    v = w := by
  obtain ⟨i, hi⟩ := List.getElem?_of_mem hv
  obtain ⟨j, hj⟩ := List.getElem?_of_mem hw
  have hlt : i < (vs.map fun v => v.ident).length := by simpa using (List.getElem?_eq_some_iff.mp hi).1
  have : i = j := (List.getElem?_inj hlt hn).mp (by simp [hi, hj, h])
  subst this
  rw [hi] at hj
  exact Option.some.inj hj

/-- What the arms for the variants of a described enum cover. -/
theorem arms_cover (d : Decl) (e : MEnum) (vs : List DVariant) (hvs : d.data = .enm vs) (hd : Describes d (.enm e))
    (hn : (vs.map fun v => v.ident).Nodup) (arms : List (String × Bool)) (ha : arms.Perm (e.variants.map fun v => (v.ident, v.payload))) :
    (∀ v ∈ vs, ((∃ payload, (v.ident, payload) ∈ arms) ↔ ¬ Skipped v)) ∧
    (∀ v ∈ vs, ∀ payload, (v.ident, payload) ∈ arms → v.fields = if payload then .unnamed 1 else .unit) ∧
    (∀ a ∈ arms, ∃ v ∈ vs, v.ident = a.1) := by
  obtain ⟨vs', hvs', _, hr, _⟩ := hd
  rw [hvs] at hvs'
  injection hvs' with hvs'
  subst hvs'
  have back : ∀ a ∈ arms, ∃ v ∈ vs, ¬ Skipped v ∧ v.ident = a.1 ∧ v.fields = if a.2 then .unnamed 1 else .unit := by
    intro a h
    obtain ⟨m, hm, rfl⟩ := List.mem_map.mp (ha.mem_iff.mp h)
    obtain ⟨v, hv, his⟩ := rowwise_right hr m hm
    obtain ⟨h1, h2⟩ := List.mem_filter.mp hv
    refine ⟨v, h1, fun hs => (of_decide_eq_true (p := word "skip" ∉ attrItems v.attrs) h2) hs, his.ident.symm, ?_⟩
    cases hp : m.payload with
    | true => simpa using his.payload.1.mp hp
    | false => simpa using his.payload.2.mp hp
  refine ⟨fun v hv => ⟨?_, fun hs => ?_⟩, ?_, ?_⟩
  · rintro ⟨p, hp⟩
    obtain ⟨w, hw, hws, hwi, _⟩ := back _ hp
    rw [ident_unique hn hv hw hwi.symm]
    exact hws
  · obtain ⟨m, hm, his⟩ := rowwise_left hr v (List.mem_filter.mpr ⟨hv, decide_eq_true hs⟩)
    exact ⟨m.payload, ha.mem_iff.mpr (List.mem_map.mpr ⟨m, hm, by rw [his.ident]⟩)⟩
  · intro v hv p hp
    obtain ⟨w, hw, _, hwi, hwf⟩ := back _ hp
    rw [ident_unique hn hv hw hwi.symm]
    exact hwf
  · intro a h
    obtain ⟨w, hw, _, hwi, _⟩ := back _ h
    exact ⟨w, hw, hwi⟩

theorem exhaustive_iff (d : Decl) (e : MEnum) (vs : List DVariant) (hvs : d.data = .enm vs) (hd : Describes d (.enm e))
    (hn : (vs.map fun v => v.ident).Nodup) (arms : List (String × Bool)) (ha : arms.Perm (e.variants.map fun v => (v.ident, v.payload))) :
    Exhaustive vs arms ↔ ∀ v ∈ vs, ¬ Skipped v := by
  obtain ⟨h1, h2, h3⟩ := arms_cover d e vs hvs hd hn arms ha
  constructor
  · intro h v hv
    exact (h1 v hv).mp (h.covered v hv)
  · intro h
    exact ⟨fun v hv => (h1 v hv).mpr (h v hv), h2, h3⟩

end SX.Gen
