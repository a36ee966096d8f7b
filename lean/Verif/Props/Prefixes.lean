import Verif.Proof.Prefixes
import Verif.Spec.Given
import Verif.Props.Writer

/-
C48: which prefixes are written.
-/
namespace SX
open Spec

/-- C48: the mappings in force in an element, from the calls on its builder and the mappings in force in its parent.  URIs are served in ascending
order, each by the rule of `Chosen`; a mapping of the parent that nobody asks for stays, unless its prefix is taken. -/
theorem C48_prefixes (dbg : Bool) (name : EName) (parent : Option Namespaces) (hp : ∀ n, parent = some n → n.Ok) (calls : List BCall)
    (b : Builder) (rs : List (Except SErr Unit))
    (h : runCalls dbg calls (Builder.new name ((parent.map fun n => n.child name.ns).getD [])) = .ok (b, rs)) :
    let scope := (parent.map Namespaces.byPrefix).getD []
    let request := fun u => requestOf (decide (u = name.ns)) (prefixOf scope u) (concerning u [] calls)
    ∃ n reqs asg, b.ns.finalize = .ok n ∧ Ascending (reqs.map Request.url) ∧
      (∀ r, r ∈ reqs ↔ request r.url = some (r.pfx, r.needs)) ∧ Assigned [] reqs asg ∧ Ascending (n.byPrefix.map Prod.fst) ∧
      ∀ p u, (p, u) ∈ n.byPrefix ↔ (u, p) ∈ asg ∨ ((p, u) ∈ scope ∧ request u = none ∧ ∀ v, (v, p) ∉ asg) := by
  intro scope request
  have hscope : scope.keys.Nodup ∧ (scope.map Prod.snd).Nodup := by
    cases parent with
    | none => exact ⟨List.nodup_nil, List.nodup_nil⟩
    | some n => exact ⟨(hp n rfl).prefixes, byPrefix_urls (hp n rfl)⟩
  have hstart : Ascending (SMap.keys ((parent.map fun n => n.child name.ns).getD [])) := by
    cases parent with
    | none => exact .nil
    | some n => exact childLoop_ascending _ _ _ _ .nil
  have hbok : NsBuilder.Ok ((parent.map fun n => n.child name.ns).getD []) := by
    cases parent with
    | none => exact NsBuilder.Ok.nil
    | some n => exact n.child_ok _
  have hget0 : ∀ u, SMap.get ((parent.map fun n => n.child name.ns).getD []) u =
      (prefixOf scope u).map fun q => { requested := q, assigned := none, required := decide (u = name.ns), needsPrefix := false } := by
    intro u
    cases parent with
    | none => rfl
    | some n =>
      show SMap.get (n.child name.ns) u = _
      unfold Namespaces.child
      rw [childLoop_exact name.ns n.byPrefix false [] (byPrefix_urls (hp n rfl)) (by simp)]
      simp only [prefixOf, scope, Option.map_some, Option.getD_some]
      cases n.byPrefix.find? fun x => x.2 == u <;> rfl
  obtain ⟨hasc, hget⟩ := runCalls_get dbg calls _ b rs h hstart
  have hok := runCalls_ok dbg calls _ b rs hbok h
  have hent : ∀ u, _ := fun u => foldl_entry (decide (u = name.ns)) (prefixOf scope u) (concerning u [] calls) (SMap.get b.ns u)
    (by rw [hget u]; simp only [Builder.new]; rw [hget0 u])
  obtain ⟨n, hn, hnok, -⟩ := finalize_spec b.ns hok
  have hfin := hn
  unfold NsBuilder.finalize at hfin
  cases h1 : passRequired [] b.ns with
  | error f => rw [h1] at hfin; cases hfin
  | ok r =>
    obtain ⟨m1, l1⟩ := r
    rw [h1] at hfin
    obtain ⟨asg, g1, g2, g3⟩ := passRequired_assigned [] b.ns .nil h1
    obtain ⟨m1', l1', k1, k2, -, -, k5⟩ := passRequired_spec [] b.ns (by simp [SMap.keys]) hok.fresh
    rw [h1] at k1
    cases k1
    have hinh : ∀ u e, SMap.get b.ns u = some e → e.required = false → (e.requested, u) ∈ scope := by
      intro u e he hr
      have := (hent u).2.1 e he hr
      simp only [prefixOf, Option.map_eq_some_iff] at this
      obtain ⟨x, hx, hxe⟩ := this
      have hm := List.mem_of_find?_eq_some hx
      have hxu : x.2 = u := by simpa using List.find?_some hx
      rw [← hxe, ← hxu]
      exact hm
    have hnd1 : SMap.keys l1 |>.Nodup := by
      rw [← keys_unassigned l1, k2]; exact hok.nodup
    have hl1 : ∀ u e, (u, e) ∈ l1 → e.required = false → SMap.get b.ns u = some e := by
      intro u e hm hr
      have ha := k5 (u, e) hm
      simp only [hr, Bool.false_eq_true, if_false] at ha
      apply SMap.mem_get hok.nodup
      rw [← k2]
      exact List.mem_map.mpr ⟨(u, e), hm, unassigned_eq (x := (u, e)) ha⟩
    have hdist : (l1.filter fun x => !x.2.required).Pairwise fun x y => x.2.requested ≠ y.2.requested := by
      have hnd : (l1.filter fun x => !x.2.required).Pairwise fun x y => x.1 ≠ y.1 := by
        have : l1.Pairwise fun x y => x.1 ≠ y.1 := by
          simpa [SMap.keys, List.Nodup, List.pairwise_map] using hnd1
        exact this.filter _
      refine List.Pairwise.imp_of_mem ?_ hnd
      intro x y hx hy hne he
      simp only [List.mem_filter, Bool.not_eq_true'] at hx hy
      have hx' := hinh x.1 x.2 (hl1 _ _ hx.1 hx.2) hx.2
      have hy' := hinh y.1 y.2 (hl1 _ _ hy.1 hy.2) hy.2
      have e1 := SMap.mem_get hscope.1 hx'
      have e2 := SMap.mem_get hscope.1 hy'
      rw [he, e2] at e1
      exact hne (Option.some.inj e1).symm
    cases h2 : passInherited m1 l1 with | mk m2 l2 =>
    dsimp only at hfin
    rw [h2] at hfin
    cases hfin
    obtain ⟨j1, j2⟩ := passInherited_exact m1 l1 g2 hdist h2
    refine ⟨_, requests b.ns, asg, hn, ?_, ?_, g1, j1, ?_⟩
    · have : (requests b.ns).map Request.url = (b.ns.filter fun x => x.2.required).map Prod.fst := by
        simp only [requests, List.map_map]
        rfl
      rw [this]
      exact List.Pairwise.sublist ((List.filter_sublist).map Prod.fst) hasc
    · intro r
      rw [show request r.url = some (r.pfx, r.needs) ↔ _ from (hent r.url).1 (r.pfx, r.needs)]
      simp only [requests, List.mem_map, List.mem_filter, Prod.mk.injEq]
      constructor
      · rintro ⟨⟨u, e⟩, ⟨hm, hr⟩, rfl⟩
        exact ⟨e, SMap.mem_get hok.nodup hm, hr, rfl, rfl⟩
      · rintro ⟨e, he, hr, h1, h2⟩
        refine ⟨(r.url, e), ⟨SMap.get_mem he, hr⟩, ?_⟩
        cases r
        simp only at h1 h2
        simp [requestFor, h1, h2]
    · intro p u
      have hmem : (p, u) ∈ m2 ↔ m2.get p = some u := ⟨SMap.mem_get (ascending_nodup j1), SMap.get_mem⟩
      have hm1 : ∀ v, m1.get p = some v ↔ (v, p) ∈ asg := by
        intro v
        rw [g3]
        simp [SMap.get_nil]
      rw [hmem, j2, hm1]
      refine or_congr Iff.rfl ?_
      have hnone : m1.get p = none ↔ ∀ v, (v, p) ∉ asg := by
        constructor
        · intro h0 v hv
          rw [(hm1 v).mpr hv] at h0
          cases h0
        · intro h0
          cases hq : m1.get p with
          | none => rfl
          | some v => exact absurd ((hm1 v).mp hq) (h0 v)
      rw [hnone]
      constructor
      · rintro ⟨hfree, e, hm, hr, rfl⟩
        have he := hl1 u e hm hr
        refine ⟨hinh u e he hr, ?_, hfree⟩
        cases hq : request u with
        | none => rfl
        | some r =>
          obtain ⟨e', h1, h2, -⟩ := ((hent u).1 r).mp hq
          rw [he] at h1
          cases h1
          rw [hr] at h2
          cases h2
      · rintro ⟨hs, hreq, hfree⟩
        refine ⟨hfree, ?_⟩
        have hpre : prefixOf scope u = some p := by
          unfold prefixOf
          cases hf : scope.find? fun x => x.2 == u with
          | none =>
            rw [List.find?_eq_none] at hf
            exact absurd (by simp) (hf (p, u) hs)
          | some x =>
            have hm := List.mem_of_find?_eq_some hf
            have hxu : x.2 = u := by simpa using List.find?_some hf
            have : x = (p, u) := by
              have hnd := hscope.2
              obtain ⟨i, hi⟩ := List.mem_iff_getElem?.mp hm
              obtain ⟨j, hj⟩ := List.mem_iff_getElem?.mp hs
              have hi' : (scope.map Prod.snd)[i]? = some u := by simp [hi, hxu]
              have hj' : (scope.map Prod.snd)[j]? = some u := by simp [hj]
              have hij : i = j := by
                have hil : i < (scope.map Prod.snd).length := by
                  rw [List.getElem?_eq_some_iff] at hi'; exact hi'.1
                exact (List.getElem?_inj hil hnd).mp (hi'.trans hj'.symm)
              subst hij
              rw [hi] at hj
              exact Option.some.inj hj
            rw [this]; rfl
        obtain ⟨e', h1, h2, h3⟩ := (hent u).2.2 p hpre hreq
        have hm : (u, e') ∈ l1.map unassigned := by rw [k2]; exact SMap.get_mem h1
        obtain ⟨⟨u', e''⟩, hm', he''⟩ := List.mem_map.mp hm
        simp only [unassigned, Prod.mk.injEq] at he''
        obtain ⟨rfl, rfl⟩ := he''
        exact ⟨e'', hm', h2, h3⟩

/-- The choice is unique, so the mappings are determined. -/
theorem C48_unique {used : List String} {l : List Request} {m m' : List (String × String)} (h : Assigned used l m) (h' : Assigned used l m') :
    m = m' := Assigned.unique h h'

/-- C48: two sequences of calls that concern each URI in the same way lead to the same mappings, in the same order. -/
theorem C48_same_calls (dbg : Bool) (name : EName) (parent : Option Namespaces) (calls calls' : List BCall) (b b' : Builder)
    (rs rs' : List (Except SErr Unit)) (hc : ∀ u, concerning u [] calls = concerning u [] calls')
    (h : runCalls dbg calls (Builder.new name ((parent.map fun n => n.child name.ns).getD [])) = .ok (b, rs))
    (h' : runCalls dbg calls' (Builder.new name ((parent.map fun n => n.child name.ns).getD [])) = .ok (b', rs')) :
    b.ns.finalize = b'.ns.finalize := by
  have hstart : Ascending (SMap.keys ((parent.map fun n => n.child name.ns).getD [])) := by
    cases parent with
    | none => exact .nil
    | some n => exact childLoop_ascending _ _ _ _ .nil
  obtain ⟨h1, h2⟩ := runCalls_get dbg calls _ b rs h hstart
  obtain ⟨h1', h2'⟩ := runCalls_get dbg calls' _ b' rs' h' hstart
  rw [SMap.ext h1 h1' fun u => by rw [h2, h2']; simp only [Builder.new, hc]]

/-- Ascending declarations, each URI once. -/
def StepAscending : Step → Prop
  | .wrote (.start _ _ ns) _ => Ascending (ns.map Prod.fst) ∧ (ns.map Prod.snd).Nodup
  | _ => True

theorem finalize_ascending {b : NsBuilder} {n : Namespaces} (h : b.finalize = .ok n) : Ascending (n.byPrefix.map Prod.fst) := by
  have put : ∀ (m m' : SMap String) p u f, nsPut m p u = (m', f) → Ascending m.keys → Ascending m'.keys := by
    intro m m' p u f h hm
    cases f with
    | true =>
      obtain ⟨h1, rfl⟩ := nsPut_true h
      exact SMap.ascending_insertNew m p u h1 hm
    | false =>
      obtain ⟨_, rfl⟩ := nsPut_false h
      exact hm
  have inh : ∀ (l : NsBuilder) (m : SMap String), Ascending m.keys → Ascending (passInherited m l).1.keys := by
    intro l
    induction l with
    | nil => exact fun m hm => hm
    | cons x l ih =>
      intro m hm
      unfold passInherited
      split
      · exact ih m hm
      · split
        · rename_i h1
          exact ih _ (put _ _ _ _ _ h1 hm)
        · rename_i h1
          exact ih _ (put _ _ _ _ _ h1 hm)
  unfold NsBuilder.finalize at h
  split at h
  · cases h
  · rename_i m l h1
    obtain ⟨_, _, g2, _⟩ := passRequired_assigned [] b .nil h1
    have := inh l m g2
    split at h
    rename_i m2 l2 h2
    cases h
    rw [h2] at this
    exact this

theorem ascendingInv (dbg : Bool) : StepInv dbg (fun _ _ => True) (fun b => b.ns.Ok) Namespaces.Ok StepAscending where
  root _ := NsBuilder.Ok.nil
  child n name _ := n.child_ok name.ns
  ns b b' p u hb _ h := by
    unfold Builder.namespace at h
    split at h
    · cases h
    · rename_i ns hns
      cases h
      exact NsBuilder.Ok.insert hb hns
  attr b b' n v r hb h := by
    unfold Builder.attribute at h
    split at h
    · split at h
      · cases h
      · cases h; exact hb
    · cases h; exact NsBuilder.Ok.attribute hb n.ns
  start b n q as hb h _ _ := by
    obtain ⟨n', h1, h2, -⟩ := finalize_spec b.ns hb
    rw [h] at h1
    cases h1
    exact ⟨h2, finalize_ascending h, byPrefix_urls h2⟩
  chars _ := trivial
  stop := trivial
  failed _ _ := trivial
  abandoned _ := trivial

/-- C48: whatever a program does, every start tag declares its prefixes in ascending order, and no prefix or URI twice. -/
theorem C48_declarations (dbg : Bool) (sink : Sink) (name : EName) (attrs : AttrProg) (children : Prog [.writer false]) (s : WState)
    (r : Except SErr Unit) (h : serializeTo dbg sink name attrs children = .ok (s, r)) (q : WName) (as : List (WName × String))
    (ns : List (String × String)) (hm : WEvent.start q as ns ∈ s.out) :
    Ascending (ns.map Prod.fst) ∧ (ns.map Prod.fst).Nodup ∧ (ns.map Prod.snd).Nodup := by
  have hsteps := (ascendingInv dbg).serializeTo (AttrProg.Mappings.trivial attrs) (Prog.Mappings.trivial children) h
  rw [(serializeTo_sticky h).out] at hm
  obtain ⟨x, hx, hxe⟩ := List.mem_filterMap.mp hm
  have := hsteps x hx
  cases x with
  | wrote e a =>
    cases hxe
    exact ⟨this.1, ascending_nodup this.1, this.2⟩
  | failed e err => cases hxe
  | abandoned err => cases hxe

/-- C48: namespaces of different URIs can be declared in any order (before attributes are added). -/
theorem C48_order (dbg : Bool) (l l' rest : List BCall) (hl : ∀ c ∈ l, ∃ p u, c = .namespace p u)
    (hd : l.Pairwise fun c c' => ∀ p u p', c = .namespace p u → c' ≠ .namespace p' u) (hp : l.Perm l') (b : Builder)
    (hb : Ascending (SMap.keys b.ns)) : runCalls dbg (l ++ rest) b = runCalls dbg (l' ++ rest) b := by
  induction hp generalizing b with
  | nil => rfl
  | @cons c l1 l2 _ ih =>
    obtain ⟨p, u, rfl⟩ := hl c (by simp)
    simp only [List.cons_append, runCalls]
    cases hn : Builder.namespace dbg b p u with
    | error f => rfl
    | ok b1 =>
      refine ih (fun c hc => hl c (List.mem_cons_of_mem _ hc)) (List.pairwise_cons.mp hd).2 b1 ?_
      unfold Builder.namespace at hn
      split at hn
      · cases hn
      · rename_i h1
        cases hn
        exact insert_ascending h1 hb
  | @swap c c' l1 =>
    obtain ⟨p, u, rfl⟩ := hl c (by simp)
    obtain ⟨p', u', rfl⟩ := hl c' (by simp)
    have hne : u ≠ u' := by
      rintro rfl
      have := (List.pairwise_cons.mp hd).1 (.namespace p u) (by simp)
      exact this p' u p rfl rfl
    simp only [List.cons_append, runCalls]
    have fails : ∀ (b : NsBuilder) p u, b.insert dbg p u = .error .panic ∨ ∃ b', b.insert dbg p u = .ok b' := by
      intro b p u
      unfold NsBuilder.insert
      split
      · exact .inl rfl
      · split
        · exact .inr ⟨_, rfl⟩
        · exact .inr ⟨_, rfl⟩
    have same : ∀ (b b' : NsBuilder) p u u', b.insert dbg p u = .error .panic → b'.insert dbg p u' = .error .panic := by
      intro b b' p u u' h
      unfold NsBuilder.insert at h ⊢
      split at h
      · rename_i hx; rw [if_pos hx]
      · split at h <;> cases h
    rcases fails b.ns p' u' with h1 | ⟨b1, h1⟩
    · rcases fails b.ns p u with h2 | ⟨b2, h2⟩
      · simp only [Builder.namespace, h1, h2]
      · simp only [Builder.namespace, h1, h2, same b.ns b2 p' u' u' h1]
    · rcases fails b.ns p u with h2 | ⟨b2, h2⟩
      · simp only [Builder.namespace, h1, h2, same b.ns b1 p u u h2]
      · rcases fails b1 p u with h3 | ⟨b3, h3⟩
        · rw [same b1 b.ns p u u h3] at h2; cases h2
        · rcases fails b2 p' u' with h4 | ⟨b4, h4⟩
          · rw [same b2 b.ns p' u' u' h4] at h1; cases h1
          · simp only [Builder.namespace, h1, h2, h3, h4]
            have : b3 = b4 := SMap.ext (insert_ascending h3 (insert_ascending h1 hb)) (insert_ascending h4 (insert_ascending h2 hb)) fun v => by
              rw [insert_get h3, insert_get h4, insert_get h1, insert_get h2]
              by_cases huv : u = v
              · subst huv
                have hne' : ¬ u' = u := fun h => hne h.symm
                simp [hne']
              · simp [huv]
            rw [this]
  | trans hp1 _ ih1 ih2 =>
    rw [ih1 hl hd b hb]
    refine ih2 (fun c hc => hl c (hp1.mem_iff.mpr hc)) ?_ b hb
    refine hp1.pairwise hd ?_
    intro c c' h p u p' h1 h2
    exact h p' u p h2 h1

example (dbg : Bool) (rest : List BCall) :
    runCalls dbg ([.namespace "p" "urn:a", .namespace "p" "urn:b"] ++ rest) (Builder.new (ExW.n "" "r") []) =
      runCalls dbg ([.namespace "p" "urn:b", .namespace "p" "urn:a"] ++ rest) (Builder.new (ExW.n "" "r") []) := by
  refine C48_order dbg _ _ rest ?_ ?_ (.swap _ _ _) _ .nil
  · intro c hc
    simp only [List.mem_cons, List.not_mem_nil, or_false] at hc
    rcases hc with rfl | rfl <;> exact ⟨_, _, rfl⟩
  · simp

section
attribute [local semireducible] natDigits

/-- Below `xmlns:p="urn:a" xmlns:q="urn:b"`: `p` is asked for `urn:c`, and an attribute is in `urn:a`; nobody asks for `urn:b`. -/
def ExW.outer : Namespaces where
  byUrl := [("urn:a", ⟨"p", some "p", true, false⟩), ("urn:b", ⟨"q", some "q", true, false⟩)]
  byPrefix := [("p", "urn:a"), ("q", "urn:b")]

example : ∃ b rs, runCalls true [.namespace "p" "urn:c", .attribute (ExW.n "urn:a" "x") "1", .namespace "z" "urn:a"]
      (Builder.new (ExW.n "" "r") (((some ExW.outer).map fun n => n.child "").getD [])) = .ok (b, rs) ∧
    ∃ n, b.ns.finalize = .ok n ∧ n.byPrefix = [("p", "urn:a"), ("p2", "urn:c"), ("q", "urn:b")] :=
  ⟨_, _, rfl, _, rfl, rfl⟩

/-- By the rules: `urn:a` comes before `urn:c` and keeps `p`; `p` is not usable for `urn:c`, so it is numbered. -/
example : Assigned [] [⟨"urn:a", "p", true⟩, ⟨"urn:c", "p", false⟩] [("urn:a", "p"), ("urn:c", "p" ++ toString 2)] :=
  .cons (r := ⟨"urn:a", "p", true⟩) (.asked (by unfold Usable; decide))
    (.cons (r := ⟨"urn:c", "p", false⟩) (.numbered (by unfold Usable; decide) (by decide) 2 (by decide) (by decide) fun k h1 h2 => by omega) .nil)

theorem ExW.outer_ok : ExW.outer.Ok where
  urls := by decide
  prefixes := by decide
  iff p u := by
    simp only [ExW.outer, SMap.get_cons, SMap.get_nil]
    constructor
    · intro h
      split at h
      · rename_i hp; cases h; subst hp; exact ⟨_, rfl, rfl⟩
      · split at h
        · rename_i hp; cases h; subst hp; exact ⟨_, rfl, rfl⟩
        · cases h
    · rintro ⟨e, h, ha⟩
      split at h
      · rename_i hu; cases h; subst hu; cases ha; simp
      · split at h
        · rename_i hu; cases h; subst hu; cases ha; simp
        · cases h
  required u e h _ := by
    simp only [ExW.outer, SMap.get_cons, SMap.get_nil] at h
    split at h
    · cases h; exact ⟨_, rfl⟩
    · split at h
      · cases h; exact ⟨_, rfl⟩
      · cases h
  needs u e h _ hn := by
    simp only [ExW.outer, SMap.get_cons, SMap.get_nil] at h
    split at h
    · cases h; cases hn
    · split at h
      · cases h; cases hn
      · cases h

/-- The hypotheses of the other theorems, for the same calls; changing the order of the first two calls concerns no URI. -/
example := C48_prefixes true (ExW.n "" "r") (some ExW.outer) (fun n hn => by cases hn; exact ExW.outer_ok)
  [.namespace "p" "urn:c", .attribute (ExW.n "urn:a" "x") "1", .namespace "z" "urn:a"] _ _ rfl

end

end SX
