import Verif.Proof.WriterDoc

/-
Programs that declare the namespaces they use never panic.
-/
namespace SX
open Spec

/-! ### Finished mappings and what they were made from -/

theorem get_map_unassigned (l : NsBuilder) (u : String) :
    SMap.get (l.map unassigned) u = (SMap.get l u).map fun e => { e with assigned := none } := by
  induction l with
  | nil => rfl
  | cons x l ih =>
    simp only [List.map_cons]
    rw [SMap.get_cons, SMap.get_cons, ih]
    simp only [unassigned]
    by_cases h : x.1 = u <;> simp [h]

theorem finalize_get {b : NsBuilder} {n : Namespaces} (h : n.byUrl.map unassigned = b) (u : String) :
    SMap.get b u = (n.byUrl.get u).map fun e => { e with assigned := none } := by
  rw [← h, get_map_unassigned]

theorem childLoop_get (ns : String) (m : SMap String) (hu : (m.map Prod.snd).Nodup) (found : Bool) (c : NsBuilder) (u : String) :
    (∀ p, (p, u) ∈ m → SMap.get (childLoop ns m found c) u =
      some { requested := p, assigned := none, required := !found && u == ns, needsPrefix := false }) ∧
    (u ∉ m.map Prod.snd → SMap.get (childLoop ns m found c) u = SMap.get c u) := by
  induction m generalizing found c with
  | nil => exact ⟨by simp, fun _ => rfl⟩
  | cons x m ih =>
    obtain ⟨q, v⟩ := x
    simp only [List.map_cons, List.nodup_cons] at hu
    obtain ⟨h1, h2⟩ := ih hu.2 (found || (!found && v == ns))
      (SMap.set v { requested := q, assigned := none, required := !found && v == ns, needsPrefix := false } c)
    refine ⟨?_, ?_⟩
    · intro p hp
      simp only [childLoop]
      rcases List.mem_cons.mp hp with hp | hp
      · simp only [Prod.mk.injEq] at hp
        obtain ⟨rfl, rfl⟩ := hp
        rw [h2 hu.1, SMap.get_set]
        simp
      · have hne : v ≠ u := by
          rintro rfl
          exact hu.1 (List.mem_map_of_mem (f := Prod.snd) hp)
        rw [h1 p hp]
        by_cases hv : v = ns
        · subst hv
          have : (u == v) = false := by simpa using fun h => hne h.symm
          simp [this]
        · have : (v == ns) = false := by simpa using hv
          simp [this]
    · intro hn
      simp only [List.map_cons, List.mem_cons, not_or] at hn
      simp only [childLoop]
      rw [h2 hn.2, SMap.get_set, if_neg (fun h => hn.1 h.symm)]

theorem child_get {n : Namespaces} (h : n.Ok) (ns u : String) :
    (∀ p, n.byPrefix.get p = some u → SMap.get (n.child ns) u =
      some { requested := p, assigned := none, required := u == ns, needsPrefix := false }) ∧
    ((∀ p, n.byPrefix.get p ≠ some u) → SMap.get (n.child ns) u = none) := by
  obtain ⟨h1, h2⟩ := childLoop_get ns n.byPrefix (byPrefix_urls h) false [] u
  refine ⟨?_, ?_⟩
  · intro p hp
    have := h1 p (SMap.get_mem hp)
    simpa [Namespaces.child] using this
  · intro hp
    apply h2
    intro hm
    obtain ⟨x, hx, rfl⟩ := List.mem_map.mp hm
    exact hp x.1 (SMap.mem_get h.prefixes hx)

/-! ### No fault -/

/-- What holds of the attributes of a builder. -/
def AttrsReady (b : Builder) : Prop :=
  ∀ a ∈ b.attrs, a.1.ns = "" ∨ a.1.ns = xmlNs ∨ ∃ e, SMap.get b.ns a.1.ns = some e ∧ e.required = true ∧ e.needsPrefix = true

theorem Builder.Good.weaken {nd : Bool} {b : Builder} (h : b.Good nd) : b.Good false :=
  ⟨h.ok, h.noEmpty, fun x hx => ⟨(h.notXml x hx).1, by simp⟩, h.seen, h.distinct⟩

structure BuilderIs (n : EName) (i r : List String) (d : Bool) (b : Builder) : Prop where
  good : b.Good (!d)
  name : b.name = n
  inherited : ∀ u ∈ i, ∃ e, SMap.get b.ns u = some e
  required : ∀ u ∈ r, ∃ e, SMap.get b.ns u = some e ∧ e.required = true
  noXml : SMap.get b.ns xmlNs = none
  ready : AttrsReady b

structure WriterIs (sc : List String) (d : Bool) (n : Namespaces) : Prop where
  good : n.Good (!d)
  mapped : ∀ u ∈ sc, ∃ p, n.byPrefix.get p = some u
  noXml : n.byUrl.get xmlNs = none

def HIs : {h : Handle} → HScope → HState h → Prop
  | .builder, .builder n i r d, b => BuilderIs n i r d b
  | .writer _, .writer sc d, n => WriterIs sc d n
  | _, _, _ => False

def HStates.Are : {hs : List Handle} → List HScope → HStates hs → Prop
  | _, [], .nil => True
  | _, sc :: scs, .cons s rest => HIs sc s ∧ rest.Are scs
  | _, _, _ => False

theorem are_builder {hs : List Handle} {n : EName} {i r : List String} {d : Bool} {b : Builder} {scs : List HScope} {rest : HStates hs}
    (h1 : BuilderIs n i r d b) (h2 : rest.Are scs) :
    HStates.Are (.builder n i r d :: scs) (HStates.cons (h := .builder) b rest) := ⟨h1, h2⟩

theorem are_writer {o : Bool} {hs : List Handle} {sc : List String} {d : Bool} {n : Namespaces} {scs : List HScope} {rest : HStates hs}
    (h1 : WriterIs sc d n) (h2 : rest.Are scs) :
    HStates.Are (.writer sc d :: scs) (HStates.cons (h := .writer o) n rest) := ⟨h1, h2⟩

theorem WriterIs.child {sc : List String} {d : Bool} {n : Namespaces} (h : WriterIs sc d n) (name : EName) :
    BuilderIs name sc (if name.ns ∈ sc then [name.ns] else []) d (Builder.new name (n.child name.ns)) := by
  refine ⟨new_good h.good name, rfl, ?_, ?_, ?_, by intro a ha; simp [Builder.new] at ha⟩
  · intro u hu
    obtain ⟨p, hp⟩ := h.mapped u hu
    exact ⟨_, (child_get h.good.ok name.ns u).1 p hp⟩
  · intro u hu
    split at hu
    · rename_i hin
      simp only [List.mem_singleton] at hu
      subst hu
      obtain ⟨p, hp⟩ := h.mapped _ hin
      exact ⟨_, (child_get h.good.ok _ _).1 p hp, by simp⟩
    · simp at hu
  · apply (child_get h.good.ok name.ns xmlNs).2
    intro p hp
    obtain ⟨e, he, -⟩ := (h.good.ok.iff _ _).mp hp
    rw [h.noXml] at he
    simp at he

theorem BuilderIs.namespace {dbg : Bool} {n : EName} {i r : List String} {d : Bool} {b : Builder} (h : BuilderIs n i r d b) {p u : String}
    (hd : MayDeclare p u) : ∃ b', b.namespace dbg p u = .ok b' ∧ BuilderIs n i (u :: r) (d || p == "") b' := by
  obtain ⟨hx, hu, hux⟩ := hd
  have hc : (dbg && p.toList.take 3 == "xml".toList) = false := by
    have : (p.toList.take 3 == "xml".toList) = false := beq_eq_false_iff_ne.mpr hx
    rw [this]; simp
  have hex : ∃ b', b.namespace dbg p u = .ok b' ∧ b'.name = b.name ∧ b'.attrs = b.attrs ∧
      ∃ e, b'.ns = SMap.set u e b.ns ∧ e.required = true ∧ ∀ e0, SMap.get b.ns u = some e0 → e.needsPrefix = e0.needsPrefix := by
    unfold Builder.namespace NsBuilder.insert
    rw [hc]
    simp only [Bool.false_eq_true, if_false]
    cases hg : SMap.get b.ns u with
    | none => exact ⟨_, rfl, rfl, rfl, _, rfl, rfl, by simp⟩
    | some e0 => exact ⟨_, rfl, rfl, rfl, _, rfl, rfl, by simp⟩
  obtain ⟨b', h1, h2, h3, e, h4, h5, h6⟩ := hex
  refine ⟨b', h1, ?_⟩
  have hgood : b.Good (!(d || p == "")) := by
    cases d with
    | true => exact h.good
    | false =>
      cases hp : p == "" with
      | false => exact h.good
      | true => exact h.good.weaken
  refine ⟨hgood.namespace ⟨⟨hu, .inr hx⟩, ?_⟩ h1, by rw [h2, h.name], ?_, ?_, ?_, ?_⟩
  · intro hnd hp
    simp [hp] at hnd
  · intro v hv
    rw [h4, SMap.get_set]
    split
    · exact ⟨e, rfl⟩
    · exact h.inherited v hv
  · intro v hv
    rw [h4, SMap.get_set]
    split
    · exact ⟨e, rfl, h5⟩
    · rename_i hne
      rcases List.mem_cons.mp hv with hv | hv
      · exact absurd hv.symm hne
      · exact h.required v hv
  · rw [h4, SMap.get_set, if_neg hux]
    exact h.noXml
  · intro a ha
    rw [h3] at ha
    rcases h.ready a ha with hr | hr | ⟨e0, hr1, hr2, hr3⟩
    · exact .inl hr
    · exact .inr (.inl hr)
    · refine .inr (.inr ?_)
      rw [h4, SMap.get_set]
      split
      · rename_i hue
        subst hue
        exact ⟨e, rfl, h5, by rw [h6 e0 hr1, hr3]⟩
      · exact ⟨e0, hr1, hr2, hr3⟩

theorem BuilderIs.attribute {n : EName} {i r : List String} {d : Bool} {b : Builder} (h : BuilderIs n i r d b) {a : EName} (v : String)
    (hd : a.ns = "" ∨ a.ns = xmlNs ∨ a.ns ∈ i ∨ a.ns ∈ r) :
    ∃ b' res, b.attribute a v = .ok (b', res) ∧ BuilderIs n i r d b' := by
  obtain ⟨b', h1, h2, h3, h4, h5⟩ := attribute_asks (b := b) h.good.seen a v
  refine ⟨b', _, h1, ?_⟩
  by_cases hres : addResult b.attrs a v = .ok ()
  · have hg := h.good.attribute h1
    have hf : (b.attrs.find? fun x => x.1 == a) = none := by
      unfold addResult at hres
      split at hres
      · assumption
      · simp at hres
    have hns : b'.ns = b.ns.attribute a.ns := by
      unfold Builder.attribute at h1
      have := find_isSome_iff b.attrs a
      rw [← h.good.seen, hf] at this
      simp only [Option.isSome_none] at this
      rw [← this] at h1
      simp only [Bool.false_eq_true, if_false, Except.ok.injEq, Prod.mk.injEq] at h1
      rw [← h1.1]
    have hattrs : b'.attrs = b.attrs ++ [(a, v)] := by
      rw [h4]; unfold addAttr; rw [hf]; rfl
    have hkeep : ∀ w e0, SMap.get b.ns w = some e0 → ∃ e, SMap.get b'.ns w = some e ∧ (e0.required = true → e.required = true) ∧
        (e0.needsPrefix = true → e.needsPrefix = true) ∧ (w = a.ns → e.required = true ∧ e.needsPrefix = true) := by
      intro w e0 hw
      rw [hns]
      unfold NsBuilder.attribute
      cases hga : SMap.get b.ns a.ns with
      | none =>
        refine ⟨e0, hw, id, id, ?_⟩
        intro hwa
        rw [hwa, hga] at hw
        simp at hw
      | some ea =>
        simp only
        rw [SMap.get_set]
        split
        · rename_i haw
          exact ⟨_, rfl, fun _ => rfl, fun _ => rfl, fun _ => ⟨rfl, rfl⟩⟩
        · rename_i haw
          exact ⟨e0, hw, id, id, fun hwa => absurd hwa.symm haw⟩
    refine ⟨hg, by rw [h3, h.name], ?_, ?_, ?_, ?_⟩
    · intro w hw
      obtain ⟨e0, he0⟩ := h.inherited w hw
      obtain ⟨e, he, -⟩ := hkeep w e0 he0
      exact ⟨e, he⟩
    · intro w hw
      obtain ⟨e0, he0, hr0⟩ := h.required w hw
      obtain ⟨e, he, hr, -⟩ := hkeep w e0 he0
      exact ⟨e, he, hr hr0⟩
    · rw [hns]
      unfold NsBuilder.attribute
      cases hga : SMap.get b.ns a.ns with
      | none => exact h.noXml
      | some ea =>
        simp only
        rw [SMap.get_set, if_neg ?_]
        · exact h.noXml
        · intro hax
          rw [hax, h.noXml] at hga
          simp at hga
    · intro x hx
      rw [hattrs] at hx
      rcases List.mem_append.mp hx with hx | hx
      · rcases h.ready x hx with hr | hr | ⟨e0, hr1, hr2, hr3⟩
        · exact .inl hr
        · exact .inr (.inl hr)
        · obtain ⟨e, he, k1, k2, -⟩ := hkeep _ e0 hr1
          exact .inr (.inr ⟨e, he, k1 hr2, k2 hr3⟩)
      · simp only [List.mem_singleton] at hx
        subst hx
        simp only
        have hsome : ∀ e0, SMap.get b.ns a.ns = some e0 → ∃ e, SMap.get b'.ns a.ns = some e ∧ e.required = true ∧ e.needsPrefix = true := by
          intro e0 he0
          obtain ⟨e, he, -, -, k⟩ := hkeep _ e0 he0
          exact ⟨e, he, k rfl⟩
        rcases hd with hd | hd | hd | hd
        · exact .inl hd
        · exact .inr (.inl hd)
        · obtain ⟨e0, he0⟩ := h.inherited _ hd
          exact .inr (.inr (hsome e0 he0))
        · obtain ⟨e0, he0, -⟩ := h.required _ hd
          exact .inr (.inr (hsome e0 he0))
  · rw [h5 hres]
    exact h

theorem resolveAttrs_total {n : Namespaces} (l : List (EName × String)) (h : ∀ a ∈ l, ∃ q, n.resolveAttribute a.1 = .ok q) :
    ∃ as, resolveAttrs n l = .ok as := by
  induction l with
  | nil => exact ⟨[], rfl⟩
  | cons a l ih =>
    obtain ⟨q, hq⟩ := h a (by simp)
    obtain ⟨as, has⟩ := ih fun x hx => h x (List.mem_cons_of_mem _ hx)
    exact ⟨_, by simp only [resolveAttrs, hq, has]; rfl⟩

/-- The attributes of a ready builder get resolved. -/
theorem ready_resolves {b : Builder} (hb : b.ns.Ok) (hready : AttrsReady b) (hx : SMap.get b.ns xmlNs = none) {n : Namespaces}
    (h : b.ns.finalize = .ok n) : ∃ as, resolveAttrs n b.attrs = .ok as := by
  obtain ⟨n', h1, h2, h3⟩ := finalize_spec b.ns hb
  rw [h] at h1
  simp only [Except.ok.injEq] at h1
  subst h1
  apply resolveAttrs_total
  intro a ha
  unfold Namespaces.resolveAttribute
  by_cases hns : a.1.ns = ""
  · exact ⟨_, by rw [if_pos hns]⟩
  · rw [if_neg hns]
    rcases hready a ha with hr | hr | ⟨e, he1, he2, he3⟩
    · exact absurd hr hns
    · rw [hr]
      rw [finalize_get h3] at hx
      have : n.byUrl.get xmlNs = none := by simpa using hx
      simp [this]
    · rw [finalize_get h3] at he1
      cases hg : n.byUrl.get a.1.ns with
      | none => rw [hg] at he1; simp at he1
      | some e' =>
        rw [hg] at he1
        simp only [Option.map_some, Option.some.injEq] at he1
        subst he1
        obtain ⟨p, hp⟩ := h2.required _ _ hg he2
        have hne := h2.needs _ _ hg he2 he3
        rw [hp] at hne
        simp only [hp]
        rw [if_neg (fun h => hne (by rw [h]))]
        exact ⟨_, rfl⟩

theorem BuilderIs.start {n : EName} {i r : List String} {d : Bool} {b : Builder} (h : BuilderIs n i r d b) (hs : MayStart n r d)
    (sink : Sink) (s : WState) :
    ∃ s' res, b.start sink s = .ok (s', res) ∧ ∀ m, res = .ok m → WriterIs r d m := by
  obtain ⟨m, h1, h2, h3⟩ := nsFinalize_good h.good.ok h.good.noEmpty h.good.notXml
  have hx : m.byUrl.get xmlNs = none := by
    have := h.noXml
    rw [finalize_get h3] at this
    simpa using this
  obtain ⟨as, has⟩ := ready_resolves h.good.ok h.ready h.noXml h1
  have hw : WriterIs r d m := by
    refine ⟨h2, ?_, hx⟩
    intro u hu
    obtain ⟨e, he, hr⟩ := h.required u hu
    rw [finalize_get h3] at he
    cases hg : m.byUrl.get u with
    | none => rw [hg] at he; simp at he
    | some e' =>
      rw [hg] at he
      simp only [Option.map_some, Option.some.injEq] at he
      subst he
      obtain ⟨p, hp⟩ := h2.ok.required _ _ hg hr
      exact ⟨p, (h2.ok.iff _ _).mpr ⟨e', hg, hp⟩⟩
  have hq : ∃ q, m.resolveElement b.name = .ok q := by
    rw [h.name]
    unfold Namespaces.resolveElement
    rcases hs with hs | hs | ⟨hs, hnd⟩
    · rw [hs, hx]
      exact ⟨_, rfl⟩
    · obtain ⟨p, hp⟩ := hw.mapped _ hs
      obtain ⟨e, he, ha⟩ := (h2.ok.iff _ _).mp hp
      have hreq : e.required = true := by
        obtain ⟨e1, he1, hr1⟩ := h.required _ hs
        rw [finalize_get h3, he] at he1
        simp only [Option.map_some, Option.some.injEq] at he1
        rw [← he1] at hr1
        exact hr1
      simp only [he, ha, hreq]
      exact ⟨_, rfl⟩
    · have hd : m.byPrefix.get "" = none := (SMap.get_none _ _).mpr fun hk => (h2.notXml _ hk).2 (by rw [hnd]; rfl) rfl
      have hne : m.byUrl.get "" = none := h2.noEmpty
      have : ("" : String) ≠ xmlNs := by decide
      simp only [hs, hne, if_neg this, hd]
      exact ⟨_, rfl⟩
  obtain ⟨q, hq⟩ := hq
  unfold Builder.start
  simp only [h1, hq, has]
  cases hw' : s.write sink (.start q as m.byPrefix) (some (b.name, b.attrs)) with
  | mk s' res =>
    cases res with
    | error e => exact ⟨s', _, rfl, fun _ h => by simp at h⟩
    | ok u =>
      refine ⟨s', _, rfl, ?_⟩
      intro m' hm'
      simp only [Except.ok.injEq] at hm'
      subst hm'
      exact hw

theorem Prog.run_total (dbg : Bool) (sink : Sink) {hs : List Handle} (p : Prog hs) (scs : List HScope) (hp : Prog.Declared p scs)
    (st : HStates hs) (hst : st.Are scs) (s : WState) : ∃ s' r, p.run dbg sink st s = .ok (s', r) := by
  induction p generalizing s scs with
  | ret r => exact ⟨s, r, rfl⟩
  | element name k ih =>
    cases st with | cons n rest =>
    cases scs with
    | nil => exact hst.elim
    | cons sc scs =>
      cases sc with
      | builder _ _ _ _ => exact hp.elim
      | writer sc d =>
        exact ih _ hp _ (are_builder (WriterIs.child hst.1 name) hst) s
  | text t k ih =>
    simp only [Prog.run]
    have : ∀ res, Prog.Declared (k res) scs := by
      cases scs with
      | nil => exact hp
      | cons sc scs => exact hp
    exact ih _ scs (this _) st hst _
  | «namespace» p u k ih =>
    cases st with | cons b rest =>
    cases scs with
    | nil => exact hst.elim
    | cons sc scs =>
      cases sc with
      | writer _ _ => exact hp.elim
      | builder n i r d =>
        obtain ⟨b', h1, h2⟩ := BuilderIs.namespace (dbg := dbg) hst.1 hp.1
        simp only [Prog.run, h1]
        exact ih _ hp.2 _ (are_builder h2 hst.2) s
  | «attribute» a v k ih =>
    cases st with | cons b rest =>
    cases scs with
    | nil => exact hst.elim
    | cons sc scs =>
      cases sc with
      | writer _ _ => exact hp.elim
      | builder n i r d =>
        obtain ⟨b', res, h1, h2⟩ := BuilderIs.attribute hst.1 v hp.1
        simp only [Prog.run, h1]
        exact ih _ _ (hp.2 _) _ (are_builder h2 hst.2) s
  | start ok fail ih1 ih2 =>
    cases st with | cons b rest =>
    cases scs with
    | nil => exact hst.elim
    | cons sc scs =>
      cases sc with
      | writer _ _ => exact hp.elim
      | builder n i r d =>
        obtain ⟨s', res, h1, h2⟩ := BuilderIs.start hst.1 hp.1 sink s
        simp only [Prog.run, h1]
        cases res with
        | ok m => exact ih1 _ hp.2.1 _ (are_writer (h2 m rfl) hst.2) s'
        | error e => exact ih2 e _ (hp.2.2 e) _ hst.2 s'
  | finish k ih =>
    cases st with | cons b rest =>
    cases scs with
    | nil => exact hst.elim
    | cons sc scs =>
      simp only [Prog.run]
      exact ih _ _ (hp _) _ hst.2 _
  | dropBuilder k ih =>
    cases st with | cons b rest =>
    cases scs with
    | nil => exact hst.elim
    | cons sc scs => exact ih _ hp _ hst.2 _
  | dropWriter k ih =>
    cases st with | cons b rest =>
    cases scs with
    | nil => exact hst.elim
    | cons sc scs => exact ih _ hp _ hst.2 _
  | forgetBuilder k ih =>
    cases st with | cons b rest =>
    cases scs with
    | nil => exact hst.elim
    | cons sc scs => exact ih _ hp _ hst.2 _
  | forgetWriter k ih =>
    cases st with | cons b rest =>
    cases scs with
    | nil => exact hst.elim
    | cons sc scs => exact ih _ hp _ hst.2 _

theorem AttrProg.run_total (dbg : Bool) (p : AttrProg) (n : EName) (i r : List String) (d : Bool) (K : HScope → Prop)
    (hp : AttrProg.Declared p (.builder n i r d) K) (b : Builder) (hb : BuilderIs n i r d b) :
    ∃ b' res, p.run dbg b = .ok (b', res) ∧ (res = .ok () → ∃ r' d', BuilderIs n i r' d' b' ∧ K (.builder n i r' d')) := by
  induction p generalizing b r d with
  | ret res =>
    refine ⟨b, res, rfl, ?_⟩
    rintro rfl
    exact ⟨r, d, hb, hp⟩
  | «namespace» p u k ih =>
    obtain ⟨b', h1, h2⟩ := BuilderIs.namespace (dbg := dbg) hb hp.1
    simp only [AttrProg.run, h1]
    exact ih _ _ hp.2 b' h2
  | «attribute» a v k ih =>
    obtain ⟨b', res, h1, h2⟩ := BuilderIs.attribute hb v hp.1
    simp only [AttrProg.run, h1]
    exact ih _ _ _ (hp.2 _) b' h2

theorem serializeTo_total (dbg : Bool) (sink : Sink) (name : EName) (attrs : AttrProg) (children : Prog [.writer false])
    (h : DocumentDeclared name attrs children) : ∃ s r, serializeTo dbg sink name attrs children = .ok (s, r) := by
  have hroot : BuilderIs name [] [] false (Builder.new name []) :=
    ⟨root_good name, rfl, by simp, by simp, rfl, by intro a ha; simp [Builder.new] at ha⟩
  obtain ⟨b, res, h1, h2⟩ := AttrProg.run_total dbg attrs name [] [] false _ h _ hroot
  unfold serializeTo
  simp only [h1]
  cases res with
  | error e => exact ⟨_, _, rfl⟩
  | ok u =>
    obtain ⟨r', d', h3, h4, h5⟩ := h2 rfl
    obtain ⟨s', res, k1, k2⟩ := BuilderIs.start h3 h4 sink { out := [], poison := none, steps := [] }
    simp only [k1]
    cases res with
    | error e => exact ⟨_, _, rfl⟩
    | ok m =>
      obtain ⟨s2, res, j1⟩ := Prog.run_total dbg sink children _ h5 (.cons (h := .writer false) m .nil) ⟨k2 m rfl, trivial⟩ s'
      simp only [j1]
      cases res with
      | error e => exact ⟨_, _, rfl⟩
      | ok u => exact ⟨_, _, rfl⟩

/-! ### No endless search -/

def NoFuel {α : Type} (x : Except Fault α) : Prop := x ≠ .error .fuel

theorem start_noFuel {b : Builder} (hb : b.ns.Ok) (sink : Sink) (s : WState) : NoFuel (b.start sink s) := by
  unfold NoFuel Builder.start
  obtain ⟨n, h1, -⟩ := finalize_spec b.ns hb
  simp only [h1]
  have he : ∀ name, n.resolveElement name ≠ .error .fuel := by
    intro name
    unfold Namespaces.resolveElement
    simp only
    repeat' split
    all_goals simp
  have ha : ∀ name, n.resolveAttribute name ≠ .error .fuel := by
    intro name
    unfold Namespaces.resolveAttribute
    repeat' split
    all_goals simp
  have has : ∀ l, resolveAttrs n l ≠ .error .fuel := by
    intro l
    induction l with
    | nil => simp [resolveAttrs]
    | cons a l ih =>
      unfold resolveAttrs
      split
      · rename_i f hf
        intro h
        simp only [Except.error.injEq] at h
        subst h
        exact ha _ hf
      · split
        · rename_i f hf
          intro h
          simp only [Except.error.injEq] at h
          subst h
          exact ih hf
        · simp
  split
  · rename_i f hf
    intro h
    simp only [Except.error.injEq] at h
    subst h
    exact he _ hf
  · split
    · rename_i f hf
      intro h
      simp only [Except.error.injEq] at h
      subst h
      exact has _ hf
    · split <;> simp

theorem builder_ok_namespace {b : Builder} (hb : b.ns.Ok) (dbg : Bool) (p u : String) :
    NoFuel (b.namespace dbg p u) ∧ ∀ b', b.namespace dbg p u = .ok b' → b'.ns.Ok := by
  unfold NoFuel Builder.namespace
  constructor
  · split
    · rename_i f hf
      intro h
      simp only [Except.error.injEq] at h
      subst h
      unfold NsBuilder.insert at hf
      split at hf
      · simp at hf
      · split at hf <;> simp at hf
    · simp
  · intro b' h
    split at h
    · simp at h
    · rename_i ns hns
      simp only [Except.ok.injEq] at h
      subst h
      exact hb.insert hns

theorem builder_ok_attribute {b : Builder} (hb : b.ns.Ok) (n : EName) (v : String) :
    NoFuel (b.attribute n v) ∧ ∀ b' r, b.attribute n v = .ok (b', r) → b'.ns.Ok := by
  unfold NoFuel Builder.attribute
  constructor
  · split
    · split <;> simp
    · simp
  · intro b' r h
    split at h
    · split at h
      · simp at h
      · simp only [Except.ok.injEq, Prod.mk.injEq] at h
        rw [← h.1]; exact hb
    · simp only [Except.ok.injEq, Prod.mk.injEq] at h
      rw [← h.1]
      exact hb.attribute _

theorem Prog.run_noFuel (dbg : Bool) (sink : Sink) {hs : List Handle} (p : Prog hs) (st : HStates hs)
    (hst : st.All (fun b => b.ns.Ok) (fun _ => True)) (s : WState) : NoFuel (p.run dbg sink st s) := by
  induction p generalizing s with
  | ret r => simp [NoFuel, Prog.run]
  | element name k ih =>
    cases st with | cons n rest =>
    exact ih _ (all_builder (b := Builder.new name (Namespaces.child n name.ns)) (Namespaces.child_ok _ _) hst) s
  | text t k ih => simp only [Prog.run]; exact ih _ _ hst _
  | «namespace» p u k ih =>
    cases st with | cons b rest =>
    obtain ⟨h1, h2⟩ := builder_ok_namespace (b := b) hst.1 dbg p u
    simp only [Prog.run]
    split
    · rename_i f hf
      rw [hf] at h1
      intro h
      simp only [Except.error.injEq] at h
      subst h
      exact h1 rfl
    · rename_i b' hb'
      exact ih _ (all_builder (b := b') (h2 b' hb') hst.2) s
  | «attribute» a v k ih =>
    cases st with | cons b rest =>
    obtain ⟨h1, h2⟩ := builder_ok_attribute (b := b) hst.1 a v
    simp only [Prog.run]
    split
    · rename_i f hf
      rw [hf] at h1
      intro h
      simp only [Except.error.injEq] at h
      subst h
      exact h1 rfl
    · rename_i b' r hb'
      exact ih _ _ (all_builder (b := b') (h2 b' r hb') hst.2) s
  | start ok fail ih1 ih2 =>
    cases st with | cons b rest =>
    have h1 := start_noFuel (b := b) hst.1 sink s
    simp only [Prog.run]
    split
    · rename_i f hf
      rw [hf] at h1
      intro h
      simp only [Except.error.injEq] at h
      subst h
      exact h1 rfl
    · exact ih1 _ (all_writer trivial hst.2) _
    · exact ih2 _ _ hst.2 _
  | finish k ih => cases st with | cons b rest => simp only [Prog.run]; exact ih _ _ hst.2 _
  | dropBuilder k ih => cases st with | cons b rest => exact ih _ hst.2 _
  | dropWriter k ih => cases st with | cons b rest => exact ih _ hst.2 _
  | forgetBuilder k ih => cases st with | cons b rest => exact ih _ hst.2 _
  | forgetWriter k ih => cases st with | cons b rest => exact ih _ hst.2 _

theorem AttrProg.run_noFuel (dbg : Bool) (p : AttrProg) (b : Builder) (hb : b.ns.Ok) :
    NoFuel (p.run dbg b) ∧ ∀ b' r, p.run dbg b = .ok (b', r) → b'.ns.Ok := by
  induction p generalizing b with
  | ret r =>
    refine ⟨by simp [NoFuel, AttrProg.run], ?_⟩
    intro b' r' h
    simp only [AttrProg.run, Except.ok.injEq, Prod.mk.injEq] at h
    rw [← h.1]; exact hb
  | «namespace» p u k ih =>
    obtain ⟨h1, h2⟩ := builder_ok_namespace hb dbg p u
    simp only [AttrProg.run]
    cases hn : b.namespace dbg p u with
    | error f =>
      rw [hn] at h1
      exact ⟨fun h => h1 (by simpa using h), by simp⟩
    | ok b' => exact ih b' (h2 b' hn)
  | «attribute» a v k ih =>
    obtain ⟨h1, h2⟩ := builder_ok_attribute hb a v
    simp only [AttrProg.run]
    cases hn : b.attribute a v with
    | error f =>
      rw [hn] at h1
      exact ⟨fun h => h1 (by simpa using h), by simp⟩
    | ok x => exact ih x.2 x.1 (h2 x.1 x.2 hn)

theorem serializeTo_noFuel (dbg : Bool) (sink : Sink) (name : EName) (attrs : AttrProg) (children : Prog [.writer false]) :
    NoFuel (serializeTo dbg sink name attrs children) := by
  unfold serializeTo
  simp only
  obtain ⟨h1, h2⟩ := AttrProg.run_noFuel dbg attrs (Builder.new name []) NsBuilder.Ok.nil
  split
  · rename_i f hf
    rw [hf] at h1
    exact fun h => h1 (by simpa using h)
  · simp [NoFuel]
  · rename_i b hb
    have h3 := start_noFuel (h2 _ _ hb) sink { out := [], poison := none, steps := [] }
    split
    · rename_i f hf
      rw [hf] at h3
      exact fun h => h3 (by simpa using h)
    · simp [NoFuel]
    · rename_i s n hs
      have h4 := Prog.run_noFuel dbg sink children (.cons (h := .writer false) n .nil) (all_writer trivial all_nil) s
      split
      · rename_i f hf
        rw [hf] at h4
        exact fun h => h4 (by simpa using h)
      · simp [NoFuel]
      · simp [NoFuel]

end SX
