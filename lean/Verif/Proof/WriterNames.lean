import Verif.Proof.Writer

/-
Names written by the serializer mean what was asked for.
-/
namespace SX
open Spec

/-! ### Prefixes that do not start with `xml` -/

def NotXml (p : String) : Prop := p.toList.take 3 ≠ "xml".toList

theorem notXml_numbered (p : String) (i : Nat) (h : NotXml p) : NotXml (numbered p i) := by
  unfold NotXml at h ⊢
  simp only [numbered, String.toList_append, String.toList_ofList]
  obtain ⟨h1, h2, -⟩ := natDigits_spec i
  generalize p.toList = l at h
  generalize natDigits i = ds at h1 h2
  intro he
  cases ds with
  | nil => exact h1 rfl
  | cons c ds =>
    have hc := (isDecDigit_iff c).mp (h2 c (by simp))
    have hx : ¬ ('x' : Char).toNat ≤ 57 := by decide
    have hm : ¬ ('m' : Char).toNat ≤ 57 := by decide
    have hl : ¬ ('l' : Char).toNat ≤ 57 := by decide
    rcases l with _ | ⟨a, _ | ⟨b, _ | ⟨d, l⟩⟩⟩
    · simp at he
      rw [he.1] at hc; exact hx hc.2
    · simp at he
      rw [he.2.1] at hc; exact hm hc.2
    · simp at he
      rw [he.2.2] at hc; exact hl hc.2
    · apply h
      simpa using he

/-- Prefixes that may be assigned; `nd`: no default namespace is asked for. -/
def PfxOk (nd : Bool) (p : String) : Prop := NotXml p ∧ (nd = true → p ≠ "")

theorem pfxOk_numbered {nd : Bool} (p : String) (i : Nat) (h : NotXml p) : PfxOk nd (numbered p i) :=
  ⟨notXml_numbered p i h, fun _ => numbered_ne_empty p i⟩

/-- The mappings asked for are in order. -/
def MapOk (dbg nd : Bool) (p u : String) : Prop := MappingOk dbg p u ∧ (nd = true → p ≠ "")

theorem assignRequired_notXml {nd : Bool} {m m' : SMap String} {u p : String} {e : NsEntry} (h : assignRequired m u e = .ok (m', p))
    (hr : PfxOk nd e.requested) : PfxOk nd p := by
  obtain ⟨p', h1, -, -, h2⟩ := assignRequired_spec m u e
  rw [h1] at h
  simp only [Except.ok.injEq, Prod.mk.injEq] at h
  rw [← h.2]
  rcases h2 with h2 | ⟨j, -, h2, -⟩
  · rw [h2]; exact hr
  · rw [h2]
    apply pfxOk_numbered
    split
    · simp [NotXml]
    · exact hr.1

theorem keys_insertNew_all {m : SMap String} {p u : String} {Q : String → Prop} (hm : ∀ k ∈ m.keys, Q k) (hp : Q p) :
    ∀ k ∈ (SMap.insertNew p u m).keys, Q k := by
  intro k hk
  rw [(SMap.keys_insertNew m p u).mem_iff] at hk
  rcases List.mem_cons.mp hk with rfl | hk
  · exact hp
  · exact hm k hk

theorem passRequired_notXml {nd : Bool} (m m' : SMap String) (l l' : NsBuilder) (h : passRequired m l = .ok (m', l'))
    (hm : ∀ k ∈ m.keys, PfxOk nd k) (hl : ∀ x ∈ l, PfxOk nd x.2.requested) :
    (∀ k ∈ m'.keys, PfxOk nd k) ∧ ∀ x ∈ l', PfxOk nd x.2.requested := by
  induction l generalizing m l' with
  | nil =>
    simp only [passRequired, Except.ok.injEq, Prod.mk.injEq] at h
    rw [← h.1, ← h.2]
    exact ⟨hm, hl⟩
  | cons x l ih =>
    obtain ⟨u, e⟩ := x
    have he : PfxOk nd e.requested := hl (u, e) (by simp)
    have hl' : ∀ x ∈ l, PfxOk nd x.2.requested := fun x hx => hl x (List.mem_cons_of_mem _ hx)
    unfold passRequired at h
    split at h
    · split at h
      · simp at h
      · rename_i m1 p h1
        split at h
        · simp at h
        · rename_i m2 l2 h2
          simp only [Except.ok.injEq, Prod.mk.injEq] at h
          obtain ⟨rfl, rfl⟩ := h
          obtain ⟨p', g1, -⟩ := assignRequired_spec m u e
          have hp := assignRequired_notXml h1 he
          rw [g1] at h1
          simp only [Except.ok.injEq, Prod.mk.injEq] at h1
          obtain ⟨rfl, rfl⟩ := h1
          obtain ⟨k1, k2⟩ := ih _ _ h2 (keys_insertNew_all hm hp) hl'
          refine ⟨k1, ?_⟩
          intro x hx
          rcases List.mem_cons.mp hx with rfl | hx
          · exact he
          · exact k2 x hx
    · split at h
      · simp at h
      · rename_i m2 l2 h2
        simp only [Except.ok.injEq, Prod.mk.injEq] at h
        obtain ⟨rfl, rfl⟩ := h
        obtain ⟨k1, k2⟩ := ih _ _ h2 hm hl'
        refine ⟨k1, ?_⟩
        intro x hx
        rcases List.mem_cons.mp hx with rfl | hx
        · exact he
        · exact k2 x hx

theorem passInherited_notXml {nd : Bool} (m : SMap String) (l : NsBuilder) (hm : ∀ k ∈ m.keys, PfxOk nd k)
    (hl : ∀ x ∈ l, PfxOk nd x.2.requested) : ∀ k ∈ (passInherited m l).1.keys, PfxOk nd k := by
  induction l generalizing m with
  | nil => exact hm
  | cons x l ih =>
    obtain ⟨u, e⟩ := x
    have he : PfxOk nd e.requested := hl (u, e) (by simp)
    have hl' : ∀ x ∈ l, PfxOk nd x.2.requested := fun x hx => hl x (List.mem_cons_of_mem _ hx)
    unfold passInherited
    split
    · exact ih m hm hl'
    · cases hp : nsPut m e.requested u with | mk m1 b =>
      cases b with
      | true =>
        obtain ⟨-, rfl⟩ := nsPut_true hp
        exact ih _ (keys_insertNew_all hm he) hl'
      | false =>
        obtain ⟨-, rfl⟩ := nsPut_false hp
        exact ih _ hm hl'

/-! ### Invariants of builders and writers -/

structure Namespaces.Good (nd : Bool) (n : Namespaces) : Prop where
  ok : n.Ok
  noEmpty : n.byUrl.get "" = none
  notXml : ∀ p ∈ n.byPrefix.keys, PfxOk nd p

structure Builder.Good (nd : Bool) (b : Builder) : Prop where
  ok : b.ns.Ok
  noEmpty : SMap.get b.ns "" = none
  notXml : ∀ x ∈ b.ns, PfxOk nd x.2.requested
  seen : b.seen = b.attrs.map Prod.fst
  distinct : (b.attrs.map Prod.fst).Nodup

theorem nsFinalize_good {nd : Bool} {b : NsBuilder} (hb : b.Ok) (he : SMap.get b "" = none) (hx : ∀ x ∈ b, PfxOk nd x.2.requested) :
    ∃ n, b.finalize = .ok n ∧ n.Good nd ∧ n.byUrl.map unassigned = b := by
  obtain ⟨n, h1, h2, h3⟩ := finalize_spec b hb
  refine ⟨n, h1, ⟨h2, ?_, ?_⟩, h3⟩
  · rw [SMap.get_none] at he ⊢
    rw [← keys_unassigned, h3]
    exact he
  · unfold NsBuilder.finalize at h1
    split at h1
    · simp at h1
    · rename_i m l hp
      simp only [Except.ok.injEq] at h1
      rw [← h1]
      obtain ⟨k1, k2⟩ := passRequired_notXml _ _ _ _ hp (by simp [SMap.keys]) hx
      exact passInherited_notXml _ _ k1 k2

theorem childLoop_requested (ns : String) (m : SMap String) (found : Bool) (c : NsBuilder) (Q : String → String → Prop)
    (hm : ∀ x ∈ m, Q x.1 x.2) (hc : ∀ x ∈ c, Q x.2.requested x.1) : ∀ x ∈ childLoop ns m found c, Q x.2.requested x.1 := by
  induction m generalizing found c with
  | nil => exact hc
  | cons x m ih =>
    obtain ⟨p, u⟩ := x
    apply ih
    · exact fun x hx => hm x (List.mem_cons_of_mem _ hx)
    · intro y hy
      rcases SMap.mem_set hy with rfl | hy
      · exact hm (p, u) (by simp)
      · exact hc y hy

theorem new_good {nd : Bool} {n : Namespaces} (h : n.Good nd) (name : EName) : (Builder.new name (n.child name.ns)).Good nd := by
  have hq := childLoop_requested name.ns n.byPrefix false [] (fun p u => PfxOk nd p ∧ u ≠ "") (by
    intro x hx
    refine ⟨h.notXml x.1 (List.mem_map_of_mem hx), ?_⟩
    intro hu
    have hg : n.byPrefix.get x.1 = some "" := by
      apply SMap.mem_get h.ok.prefixes
      rw [← hu]
      exact hx
    obtain ⟨e, he, -⟩ := (h.ok.iff _ _).mp hg
    rw [h.noEmpty] at he
    simp at he) (by simp)
  refine ⟨n.child_ok _, ?_, fun x hx => (hq x hx).1, rfl, by simp [Builder.new]⟩
  show SMap.get (n.child name.ns) "" = none
  rw [SMap.get_none]
  intro hk
  obtain ⟨x, hx, hxe⟩ := List.mem_map.mp hk
  exact (hq x hx).2 hxe

theorem root_good {nd : Bool} (name : EName) : (Builder.new name []).Good nd :=
  ⟨NsBuilder.Ok.nil, rfl, by simp [Builder.new], rfl, by simp [Builder.new]⟩

theorem Builder.Good.namespace {nd : Bool} {b b' : Builder} (h : b.Good nd) {dbg : Bool} {p u : String} (hm : MapOk dbg nd p u)
    (hr : b.namespace dbg p u = .ok b') : b'.Good nd := by
  unfold Builder.namespace at hr
  split at hr
  · simp at hr
  · rename_i ns hns
    simp only [Except.ok.injEq] at hr
    subst hr
    have hp : PfxOk nd p := by
      refine ⟨?_, hm.2⟩
      rcases hm.1.2 with hd | hp
      · subst hd
        unfold NsBuilder.insert at hns
        split at hns
        · simp at hns
        · rename_i hc
          intro hx
          apply hc
          simp [hx]
      · exact hp
    refine ⟨h.ok.insert hns, ?_, ?_, h.seen, h.distinct⟩
    · unfold NsBuilder.insert at hns
      split at hns
      · simp at hns
      · split at hns
        · simp only [Except.ok.injEq] at hns
          subst hns
          simp only [SMap.get_set, hm.1.1, if_false]
          exact h.noEmpty
        · simp only [Except.ok.injEq] at hns
          subst hns
          simp only [SMap.get_set, hm.1.1, if_false]
          exact h.noEmpty
    · unfold NsBuilder.insert at hns
      split at hns
      · simp at hns
      · split at hns
        · simp only [Except.ok.injEq] at hns
          subst hns
          intro x hx
          rcases SMap.mem_set hx with rfl | hx
          · exact hp
          · exact h.notXml x hx
        · rename_i e he
          simp only [Except.ok.injEq] at hns
          subst hns
          intro x hx
          rcases SMap.mem_set hx with rfl | hx
          · simp only
            split
            · exact h.notXml _ (SMap.get_mem he)
            · exact hp
          · exact h.notXml x hx

theorem Builder.Good.attribute {nd : Bool} {b b' : Builder} (h : b.Good nd) {n : EName} {v : String} {r : Except SErr Unit}
    (hr : b.attribute n v = .ok (b', r)) : b'.Good nd := by
  unfold Builder.attribute at hr
  split at hr
  · split at hr
    · simp at hr
    · simp only [Except.ok.injEq, Prod.mk.injEq] at hr
      rw [← hr.1]
      exact h
  · rename_i hc
    simp only [Except.ok.injEq, Prod.mk.injEq] at hr
    rw [← hr.1]
    have hn : n ∉ b.attrs.map Prod.fst := by
      rw [← h.seen]
      simpa using hc
    refine ⟨h.ok.attribute _, ?_, ?_, ?_, ?_⟩
    · simp only [NsBuilder.attribute]
      split
      · exact h.noEmpty
      · rename_i e he
        rw [SMap.get_set]
        split
        · rename_i hne
          rw [hne, h.noEmpty] at he
          simp at he
        · exact h.noEmpty
    · simp only [NsBuilder.attribute]
      split
      · exact h.notXml
      · rename_i e he
        intro x hx
        rcases SMap.mem_set hx with rfl | hx
        · have := h.notXml _ (SMap.get_mem he)
          exact this
        · exact h.notXml x hx
    · simp [h.seen]
    · simp only [List.map_append, List.map_cons, List.map_nil]
      rw [List.nodup_append]
      refine ⟨h.distinct, by simp, ?_⟩
      intro a ha b hb
      simp only [List.mem_singleton] at hb
      subst hb
      intro hab
      subst hab
      exact hn ha

/-! ### Resolution -/

theorem lookup_own {m : SMap String} {p u : String} (outer : List (SMap String)) (h : m.get p = some u) :
    lookupPrefix (m :: outer) p = some u := by
  simp [lookupPrefix, h]

theorem notXml_ne {p : String} (h : NotXml p) : p ≠ "xml" := by
  intro he
  subst he
  exact h rfl

theorem get_keys {m : SMap String} {p u : String} (h : m.get p = some u) : p ∈ m.keys :=
  List.mem_map_of_mem (SMap.get_mem h)

/-- The written name of an element. -/
theorem resolveElement_spec {nd : Bool} {n : Namespaces} (h : n.Good nd) {name : EName} {q : WName} (hr : n.resolveElement name = .ok q) :
    q.loc = name.loc ∧ (∀ outer, name.ns ≠ "" → resolveElem (n.byPrefix :: outer) q = some name) ∧
      (name.ns = "" → q.pfx = none ∧ n.byPrefix.get "" = none) := by
  obtain ⟨ns, loc⟩ := name
  have hrest : ∀ {q : WName}, (if ns = "" then
      if (n.byPrefix.get "").isNone then (.ok (WName.of "" loc) : Except Fault WName) else .error .panic else .error .panic) = .ok q →
      q.loc = loc ∧ (∀ outer, ns ≠ "" → resolveElem (n.byPrefix :: outer) q = some ⟨ns, loc⟩) ∧
        (ns = "" → q.pfx = none ∧ n.byPrefix.get "" = none) := by
    intro q hq
    split at hq
    · rename_i h1
      split at hq
      · rename_i h2
        simp only [Except.ok.injEq] at hq
        subst hq
        exact ⟨rfl, fun _ hn => absurd h1 hn, fun _ => ⟨rfl, by simpa using h2⟩⟩
      · simp at hq
    · simp at hq
  unfold Namespaces.resolveElement at hr
  simp only at hr
  split at hr
  · rename_i e he
    split at hr
    · rename_i p ha hreq
      simp only [Except.ok.injEq] at hr
      subst hr
      have hp : n.byPrefix.get p = some ns := (h.ok.iff _ _).mpr ⟨e, he, ha⟩
      refine ⟨rfl, ?_, ?_⟩
      · intro outer hne
        unfold WName.of resolveElem
        by_cases hpe : p = ""
        · subst hpe
          simp [lookup_own outer hp]
        · simp only [hpe, if_false, notXml_ne (h.notXml p (get_keys hp)).1, lookup_own outer hp, Option.map_some]
      · intro hne
        simp only at hne
        subst hne
        rw [h.noEmpty] at he
        simp at he
    · exact hrest hr
  · split at hr
    · rename_i hx
      simp only [Except.ok.injEq] at hr
      subst hr
      refine ⟨rfl, ?_, ?_⟩
      · intro outer _
        subst hx
        rfl
      · intro hne
        subst hx
        exact absurd (show xmlNs = "" from hne) (by decide)
    · exact hrest hr

theorem resolveAttribute_spec {nd : Bool} {n : Namespaces} (h : n.Good nd) {name : EName} {q : WName} (hr : n.resolveAttribute name = .ok q) :
    (∀ outer, resolveAttr (n.byPrefix :: outer) q = some name) ∧
      (name.ns ≠ "" → ∃ p, q.pfx = some p ∧ p ≠ "") := by
  obtain ⟨ns, loc⟩ := name
  unfold Namespaces.resolveAttribute at hr
  simp only at hr
  split at hr
  · rename_i hns
    simp only [Except.ok.injEq] at hr
    subst hr
    subst hns
    exact ⟨fun _ => rfl, fun hh => absurd rfl hh⟩
  · split at hr
    · rename_i e he
      split at hr
      · rename_i p ha
        split at hr
        · simp at hr
        · rename_i hpe
          simp only [Except.ok.injEq] at hr
          subst hr
          have hp : n.byPrefix.get p = some ns := (h.ok.iff _ _).mpr ⟨e, he, ha⟩
          refine ⟨?_, fun _ => ⟨p, by simp [WName.of, hpe], hpe⟩⟩
          intro outer
          simp only [WName.of, resolveAttr, hpe, if_false, notXml_ne (h.notXml p (get_keys hp)).1, lookup_own outer hp,
            Option.map_some]
      · simp at hr
    · split at hr
      · rename_i hx
        simp only [Except.ok.injEq] at hr
        subst hr
        subst hx
        exact ⟨fun _ => rfl, fun _ => ⟨"xml", rfl, by decide⟩⟩
      · simp at hr

theorem resolveAttrs_spec {nd : Bool} {n : Namespaces} (h : n.Good nd) {l : List (EName × String)} {as : List (WName × String)}
    (hr : resolveAttrs n l = .ok as) :
    (∀ outer, as.map (fun a => (resolveAttr (n.byPrefix :: outer) a.1, a.2)) = l.map fun a => (some a.1, a.2)) ∧
    (∀ (i : Nat) (a : WName × String) (b : EName × String), as[i]? = some a → l[i]? = some b → b.1.ns ≠ "" →
      ∃ p, a.1.pfx = some p ∧ p ≠ "") := by
  induction l generalizing as with
  | nil =>
    simp only [resolveAttrs, Except.ok.injEq] at hr
    subst hr
    exact ⟨fun _ => rfl, by simp⟩
  | cons x l ih =>
    obtain ⟨name, v⟩ := x
    unfold resolveAttrs at hr
    split at hr
    · simp at hr
    · rename_i q hq
      split at hr
      · simp at hr
      · rename_i as' has
        simp only [Except.ok.injEq] at hr
        subst hr
        obtain ⟨h1, h2⟩ := ih has
        obtain ⟨h3, h4⟩ := resolveAttribute_spec h hq
        refine ⟨?_, ?_⟩
        · intro outer
          simp only [List.map_cons, h1 outer, h3 outer]
        · intro i a b ha hb hne
          cases i with
          | zero =>
            simp only [List.getElem?_cons_zero, Option.some.injEq] at ha hb
            subst ha hb
            exact h4 hne
          | succ i => exact h2 i a b (by simpa using ha) (by simpa using hb) hne

/-- What holds of a start event written for a builder. -/
structure StartOk (nd : Bool) (q : WName) (as : List (WName × String)) (ns : SMap String) (n : EName) (l : List (EName × String)) : Prop where
  elem : ∀ outer, n.ns ≠ "" → resolveElem (ns :: outer) q = some n
  plain : n.ns = "" → q = { pfx := none, loc := n.loc } ∧ ns.get "" = none
  attrs : ∀ outer, as.map (fun a => (resolveAttr (ns :: outer) a.1, a.2)) = l.map fun a => (some a.1, a.2)
  prefixed : ∀ (i : Nat) (a : WName × String) (b : EName × String), as[i]? = some a → l[i]? = some b → b.1.ns ≠ "" →
    ∃ p, a.1.pfx = some p ∧ p ≠ ""
  distinct : (l.map Prod.fst).Nodup
  prefixes : ns.keys.Nodup
  urls : (ns.map Prod.snd).Nodup
  noDefault : nd = true → ns.get "" = none
  nonEmpty : ∀ p, ns.get p ≠ some ""

theorem byPrefix_urls {n : Namespaces} (h : n.Ok) : (n.byPrefix.map Prod.snd).Nodup := by
  have hp := h.prefixes
  rw [SMap.keys, List.nodup_iff_pairwise_ne, List.pairwise_map] at hp
  rw [List.nodup_iff_pairwise_ne, List.pairwise_map]
  refine List.Pairwise.imp_of_mem ?_ hp
  intro a b ha hb hab hu
  obtain ⟨e, h1, h2⟩ := (h.iff _ _).mp (SMap.mem_get h.prefixes ha)
  obtain ⟨e', h3, h4⟩ := (h.iff _ _).mp (SMap.mem_get h.prefixes hb)
  rw [hu, h3] at h1
  simp only [Option.some.injEq] at h1
  subst h1
  rw [h2] at h4
  simp only [Option.some.injEq] at h4
  exact hab h4

theorem start_ok {nd : Bool} {b : Builder} (hb : b.Good nd) {n : Namespaces} {q : WName} {as : List (WName × String)}
    (h1 : b.ns.finalize = .ok n) (h2 : n.resolveElement b.name = .ok q) (h3 : resolveAttrs n b.attrs = .ok as) :
    n.Good nd ∧ StartOk nd q as n.byPrefix b.name b.attrs := by
  obtain ⟨n', g1, g2, -⟩ := nsFinalize_good hb.ok hb.noEmpty hb.notXml
  rw [g1] at h1
  simp only [Except.ok.injEq] at h1
  subst h1
  refine ⟨g2, ?_⟩
  obtain ⟨e1, e2, e3⟩ := resolveElement_spec g2 h2
  obtain ⟨a1, a2⟩ := resolveAttrs_spec g2 h3
  refine ⟨e2, ?_, a1, a2, hb.distinct, g2.ok.prefixes, byPrefix_urls g2.ok, fun hn => (SMap.get_none _ _).mpr fun hk => (g2.notXml _ hk).2 hn rfl, ?_⟩
  rotate_left
  · intro p hp
    obtain ⟨e, he, -⟩ := (g2.ok.iff _ _).mp hp
    rw [g2.noEmpty] at he
    simp at he
  intro hns
  obtain ⟨k1, k2⟩ := e3 hns
  refine ⟨?_, k2⟩
  cases q
  simp only at k1 e1
  rw [k1, e1]

/-! ### Runs -/

/-- Every start event written is as it should be. -/
def StepOk (nd : Bool) : Step → Prop
  | .wrote (.start q as ns) (some (n, l)) => StartOk nd q as ns n l
  | .wrote (.start _ _ _) none => False
  | .wrote _ (some _) => False
  | _ => True

def HAll (B : Builder → Prop) (N : Namespaces → Prop) : {h : Handle} → HState h → Prop
  | .builder, b => B b
  | .writer _, n => N n

def HStates.All (B : Builder → Prop) (N : Namespaces → Prop) : {hs : List Handle} → HStates hs → Prop
  | _, .nil => True
  | _, .cons s rest => HAll B N s ∧ rest.All B N

theorem all_builder {B : Builder → Prop} {N : Namespaces → Prop} {hs : List Handle} {b : Builder} {rest : HStates hs} (h1 : B b)
    (h2 : rest.All B N) : HStates.All B N (HStates.cons (h := .builder) b rest) := ⟨h1, h2⟩

theorem all_writer {B : Builder → Prop} {N : Namespaces → Prop} {hs : List Handle} {o : Bool} {n : Namespaces} {rest : HStates hs}
    (h1 : N n) (h2 : rest.All B N) : HStates.All B N (HStates.cons (h := .writer o) n rest) := ⟨h1, h2⟩

theorem all_nil {B : Builder → Prop} {N : Namespaces → Prop} : HStates.All B N .nil := trivial

abbrev HStates.Good (nd : Bool) {hs : List Handle} (st : HStates hs) : Prop := st.All (Builder.Good nd) (Namespaces.Good nd)

/-- An invariant of builders, writers and steps. -/
structure StepInv (dbg : Bool) (M : String → String → Prop) (B : Builder → Prop) (N : Namespaces → Prop) (P : Step → Prop) : Prop where
  root : ∀ name, B (Builder.new name [])
  child : ∀ n name, N n → B (Builder.new name (Namespaces.child n name.ns))
  ns : ∀ b b' p u, B b → M p u → Builder.namespace dbg b p u = .ok b' → B b'
  attr : ∀ b b' n v r, B b → Builder.attribute b n v = .ok (b', r) → B b'
  start : ∀ b n q as, B b → b.ns.finalize = .ok n → n.resolveElement b.name = .ok q → resolveAttrs n b.attrs = .ok as →
    N n ∧ P (.wrote (.start q as n.byPrefix) (some (b.name, b.attrs)))
  chars : ∀ t, P (.wrote (.chars t) none)
  stop : P (.wrote .stop none)
  failed : ∀ e err, P (.failed e err)
  abandoned : ∀ e, P (.abandoned e)

section
variable {dbg : Bool} {M : String → String → Prop} {B : Builder → Prop} {N : Namespaces → Prop} {P : Step → Prop}

theorem StepInv.write (inv : StepInv dbg M B N P) {s : WState} (hs : ∀ x ∈ s.steps, P x) (sink : Sink) (e : WEvent)
    (a : Option (EName × List (EName × String))) (h : P (.wrote e a)) : ∀ x ∈ (s.write sink e a).1.steps, P x := by
  unfold WState.write
  split
  · intro x hx
    rcases List.mem_append.mp hx with hx | hx
    · exact hs x hx
    · simp only [List.mem_singleton] at hx; subst hx; exact inv.failed _ _
  · split
    · intro x hx
      rcases List.mem_append.mp hx with hx | hx
      · exact hs x hx
      · simp only [List.mem_singleton] at hx; subst hx; exact inv.failed _ _
    · intro x hx
      rcases List.mem_append.mp hx with hx | hx
      · exact hs x hx
      · simp only [List.mem_singleton] at hx; subst hx; exact h

theorem StepInv.poison (inv : StepInv dbg M B N P) {s : WState} (hs : ∀ x ∈ s.steps, P x) (e : SErr) :
    ∀ x ∈ (s.poisonWith e).steps, P x := by
  intro x hx
  rcases List.mem_append.mp hx with hx | hx
  · exact hs x hx
  · simp only [List.mem_singleton] at hx; subst hx; exact inv.abandoned _

theorem StepInv.starts (inv : StepInv dbg M B N P) {sink : Sink} {b : Builder} (hb : B b) {s s' : WState} (hs : ∀ x ∈ s.steps, P x)
    {r : Except SErr Namespaces} (h : b.start sink s = .ok (s', r)) : (∀ x ∈ s'.steps, P x) ∧ ∀ n, r = .ok n → N n := by
  obtain ⟨n, q, as, h1, h2, h3, rfl, h4⟩ := start_cases h
  obtain ⟨g1, g2⟩ := inv.start b n q as hb h1 h2 h3
  refine ⟨inv.write hs _ _ _ g2, ?_⟩
  intro n' hn'
  rcases h4 with ⟨-, h4⟩ | ⟨e, -, h4⟩
  · rw [hn'] at h4
    simp only [Except.ok.injEq] at h4
    subst h4
    exact g1
  · rw [hn'] at h4; simp at h4

theorem StepInv.run (inv : StepInv dbg M B N P) (sink : Sink) {hs : List Handle} (p : Prog hs) (hm : Prog.Mappings M p) (st : HStates hs)
    (hst : st.All B N) (s s' : WState) (hsteps : ∀ x ∈ s.steps, P x) (r : Except SErr Unit)
    (h : p.run dbg sink st s = .ok (s', r)) : ∀ x ∈ s'.steps, P x := by
  induction p generalizing s with
  | ret r =>
    simp only [Prog.run, Except.ok.injEq, Prod.mk.injEq] at h
    rw [← h.1]
    exact hsteps
  | element name k ih =>
    cases st with | cons n rest =>
    exact ih hm _ (all_builder (inv.child n name hst.1) hst) _ hsteps h
  | text t k ih =>
    simp only [Prog.run] at h
    exact ih _ (hm _) _ hst _ (inv.write hsteps sink (.chars t) none (inv.chars t)) h
  | «namespace» p u k ih =>
    cases st with | cons b rest =>
    simp only [Prog.run] at h
    split at h
    · simp at h
    · rename_i b' hb
      exact ih hm.2 _ (all_builder (inv.ns _ _ _ _ hst.1 hm.1 hb) hst.2) _ hsteps h
  | «attribute» n v k ih =>
    cases st with | cons b rest =>
    simp only [Prog.run] at h
    split at h
    · simp at h
    · rename_i b' r' hb
      exact ih _ (hm _) _ (all_builder (inv.attr _ _ _ _ _ hst.1 hb) hst.2) _ hsteps h
  | start ok fail ih1 ih2 =>
    cases st with | cons b rest =>
    simp only [Prog.run] at h
    split at h
    · simp at h
    · rename_i s1 n hs
      obtain ⟨g1, g2⟩ := inv.starts hst.1 hsteps hs
      exact ih1 hm.1 _ (all_writer (g2 n rfl) hst.2) _ g1 h
    · rename_i s1 e hs
      obtain ⟨g1, -⟩ := inv.starts hst.1 hsteps hs
      exact ih2 _ (hm.2 _) _ hst.2 _ g1 h
  | finish k ih =>
    cases st with | cons b rest =>
    simp only [Prog.run] at h
    exact ih _ (hm _) _ hst.2 _ (inv.write hsteps sink .stop none inv.stop) h
  | dropBuilder k ih => cases st with | cons b rest => exact ih hm _ hst.2 _ (inv.poison hsteps _) h
  | dropWriter k ih => cases st with | cons b rest => exact ih hm _ hst.2 _ (inv.poison hsteps _) h
  | forgetBuilder k ih => cases st with | cons b rest => exact ih hm _ hst.2 _ hsteps h
  | forgetWriter k ih => cases st with | cons b rest => exact ih hm _ hst.2 _ hsteps h

theorem StepInv.runAttrs (inv : StepInv dbg M B N P) (p : AttrProg) (hm : AttrProg.Mappings M p) (b b' : Builder) (hb : B b)
    (r : Except SErr Unit) (h : p.run dbg b = .ok (b', r)) : B b' := by
  induction p generalizing b with
  | ret r =>
    simp only [AttrProg.run, Except.ok.injEq, Prod.mk.injEq] at h
    rw [← h.1]
    exact hb
  | «namespace» p u k ih =>
    simp only [AttrProg.run] at h
    split at h
    · simp at h
    · rename_i b1 h1
      exact ih hm.2 _ (inv.ns _ _ _ _ hb hm.1 h1) h
  | «attribute» n v k ih =>
    simp only [AttrProg.run] at h
    split at h
    · simp at h
    · rename_i b1 r1 h1
      exact ih _ (hm _) _ (inv.attr _ _ _ _ _ hb h1) h

theorem StepInv.serializeTo (inv : StepInv dbg M B N P) {sink : Sink} {name : EName} {attrs : AttrProg} {children : Prog [.writer false]}
    (ha : AttrProg.Mappings M attrs) (hc : Prog.Mappings M children) {s : WState} {r : Except SErr Unit}
    (h : serializeTo dbg sink name attrs children = .ok (s, r)) : ∀ x ∈ s.steps, P x := by
  unfold SX.serializeTo at h
  simp only at h
  split at h
  · simp at h
  · simp only [Except.ok.injEq, Prod.mk.injEq] at h
    rw [← h.1]
    exact inv.poison (by simp) _
  · rename_i b hb
    have hg := inv.runAttrs attrs ha _ _ (inv.root name) _ hb
    split at h
    · simp at h
    · rename_i hs
      simp only [Except.ok.injEq, Prod.mk.injEq] at h
      rw [← h.1]
      exact (inv.starts hg (by simp) hs).1
    · rename_i n hs
      obtain ⟨g1, g2⟩ := inv.starts hg (by simp) hs
      split at h
      · simp at h
      · rename_i hr
        simp only [Except.ok.injEq, Prod.mk.injEq] at h
        rw [← h.1]
        exact inv.poison (inv.run sink children hc _ (all_writer (g2 n rfl) all_nil) _ _ g1 _ hr) _
      · rename_i hr
        simp only [Except.ok.injEq] at h
        have := inv.write (inv.run sink children hc _ (all_writer (g2 n rfl) all_nil) _ _ g1 _ hr) sink .stop none inv.stop
        rw [h] at this
        exact this

end

theorem goodInv (dbg nd : Bool) : StepInv dbg (MapOk dbg nd) (Builder.Good nd) (Namespaces.Good nd) (StepOk nd) where
  root := root_good
  child _ name h := new_good h name
  ns _ _ _ _ h hm hr := h.namespace hm hr
  attr _ _ _ _ _ h hr := h.attribute hr
  start _ _ _ _ h h1 h2 h3 := start_ok h h1 h2 h3
  chars _ := trivial
  stop := trivial
  failed _ _ := trivial
  abandoned _ := trivial

theorem serializeTo_steps {dbg nd : Bool} {sink : Sink} {name : EName} {attrs : AttrProg} {children : Prog [.writer false]}
    (ha : AttrProg.Mappings (MapOk dbg nd) attrs) (hc : Prog.Mappings (MapOk dbg nd) children) {s : WState} {r : Except SErr Unit}
    (h : serializeTo dbg sink name attrs children = .ok (s, r)) : ∀ x ∈ s.steps, StepOk nd x :=
  (goodInv dbg nd).serializeTo ha hc h

/-- Attributes in a namespace are written with a prefix. -/
def StepPrefixed : Step → Prop
  | .wrote (.start _ as _) (some (_, l)) => ∀ (i : Nat) (a : WName × String) (b : EName × String), as[i]? = some a → l[i]? = some b →
    a.2 = b.2 ∧ a.1.loc = b.1.loc ∧ (b.1.ns = "" → a.1.pfx = none) ∧ (b.1.ns ≠ "" → ∃ p, a.1.pfx = some p ∧ p ≠ "")
  | .wrote (.start _ _ _) none => False
  | _ => True

theorem resolveAttribute_prefixed {n : Namespaces} {name : EName} {q : WName} (hr : n.resolveAttribute name = .ok q) :
    q.loc = name.loc ∧ (name.ns = "" → q.pfx = none) ∧ (name.ns ≠ "" → ∃ p, q.pfx = some p ∧ p ≠ "") := by
  unfold Namespaces.resolveAttribute at hr
  split at hr
  · rename_i hns
    simp only [Except.ok.injEq] at hr
    subst hr
    exact ⟨rfl, fun _ => rfl, fun hh => absurd hns hh⟩
  · rename_i hns
    split at hr
    · split at hr
      · split at hr
        · simp at hr
        · rename_i p _ hpe
          simp only [Except.ok.injEq] at hr
          subst hr
          exact ⟨rfl, fun hh => absurd hh hns, fun _ => ⟨p, by simp [WName.of, hpe], hpe⟩⟩
      · simp at hr
    · split at hr
      · simp only [Except.ok.injEq] at hr
        subst hr
        exact ⟨rfl, fun hh => absurd hh hns, fun _ => ⟨"xml", rfl, by decide⟩⟩
      · simp at hr

theorem resolveAttrs_prefixed {n : Namespaces} {l : List (EName × String)} {as : List (WName × String)}
    (hr : resolveAttrs n l = .ok as) (i : Nat) (a : WName × String) (b : EName × String) (ha : as[i]? = some a) (hb : l[i]? = some b) :
    a.2 = b.2 ∧ a.1.loc = b.1.loc ∧ (b.1.ns = "" → a.1.pfx = none) ∧ (b.1.ns ≠ "" → ∃ p, a.1.pfx = some p ∧ p ≠ "") := by
  induction l generalizing as i with
  | nil => simp at hb
  | cons x l ih =>
    obtain ⟨name, v⟩ := x
    unfold resolveAttrs at hr
    split at hr
    · simp at hr
    · rename_i q hq
      split at hr
      · simp at hr
      · rename_i as' has
        simp only [Except.ok.injEq] at hr
        subst hr
        cases i with
        | zero =>
          simp only [List.getElem?_cons_zero, Option.some.injEq] at ha hb
          subst ha hb
          exact ⟨rfl, resolveAttribute_prefixed hq⟩
        | succ i => exact ih has i (by simpa using ha) (by simpa using hb)

theorem prefixedInv (dbg : Bool) : StepInv dbg (fun _ _ => True) (fun _ => True) (fun _ => True) StepPrefixed where
  root _ := trivial
  child _ _ _ := trivial
  ns _ _ _ _ _ _ _ := trivial
  attr _ _ _ _ _ _ _ := trivial
  start _ _ _ _ _ _ _ h3 := ⟨trivial, fun i a b ha hb => resolveAttrs_prefixed h3 i a b ha hb⟩
  chars _ := trivial
  stop := trivial
  failed _ _ := trivial
  abandoned _ := trivial

/-! ### Builder calls -/

theorem keepFirst_mem (l : List (EName × String)) (n : EName) : n ∈ (keepFirst l).map Prod.fst ↔ n ∈ l.map Prod.fst := by
  induction l with
  | nil => simp [keepFirst]
  | cons a l ih =>
    simp only [keepFirst, List.map_cons, List.mem_cons]
    by_cases h : n = a.1
    · simp [h]
    · simp only [h, false_or]
      rw [← ih]
      simp only [List.mem_map, List.mem_filter]
      constructor
      · rintro ⟨b, ⟨h1, -⟩, h2⟩; exact ⟨b, h1, h2⟩
      · rintro ⟨b, h1, h2⟩; exact ⟨b, ⟨h1, by rw [h2]; simpa using h⟩, h2⟩

theorem keepFirst_append (l : List (EName × String)) (a : EName × String) :
    keepFirst (l ++ [a]) = if a.1 ∈ l.map Prod.fst then keepFirst l else keepFirst l ++ [a] := by
  induction l with
  | nil => simp [keepFirst]
  | cons b l ih =>
    simp only [List.cons_append, keepFirst, ih, List.map_cons, List.mem_cons]
    by_cases h : a.1 = b.1
    · simp only [h, true_or, if_true]
      split
      · rfl
      · simp [List.filter_append, h]
    · simp only [h, false_or]
      split
      · rfl
      · simp [List.filter_append, h]

theorem keepFirst_find (l : List (EName × String)) (n : EName) :
    (keepFirst l).find? (fun b => b.1 == n) = l.find? fun b => b.1 == n := by
  induction l with
  | nil => rfl
  | cons a l ih =>
    simp only [keepFirst, List.find?_cons]
    cases h : a.1 == n with
    | true => rfl
    | false =>
      simp only
      rw [← ih]
      rw [List.find?_filter]
      congr 1
      funext b
      have : a.1 ≠ n := by simpa using h
      by_cases hb : b.1 = n
      · subst hb; simpa using fun h => this h.symm
      · simp [hb]

end SX
