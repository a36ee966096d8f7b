import Verif.Props.Prefixes
import Verif.Proof.DeriveSer

/-
Prefixes of derived types: requests are the prefixes wanted; without conflicts each gets the one requested.
-/
namespace SX
open Spec

theorem assigned_noConflict {used : List String} {l : List Request} {m : List (String × String)} (h : Assigned used l m)
    (hd : l.Pairwise fun r r' => r.pfx ≠ r'.pfx) (hu : ∀ r ∈ l, r.pfx ∉ used) (hn : ∀ r ∈ l, ¬ (r.needs = true ∧ r.pfx = "")) :
    m = l.map fun r => (r.url, r.pfx) := by
  induction h with
  | nil => rfl
  | @cons used r p l m hc t ih =>
    have hus : Usable used r := ⟨hu r (by simp), hn r (by simp)⟩
    have hp : p = r.pfx := Chosen.unique hc (.asked hus)
    subst hp
    obtain ⟨hd1, hd2⟩ := List.pairwise_cons.mp hd
    rw [List.map_cons, ih hd2 ?_ fun r' hr' => hn r' (by simp [hr'])]
    intro r' hr'
    simp only [List.mem_cons, not_or]
    exact ⟨fun h => hd1 r' hr' h.symm, hu r' (by simp [hr'])⟩

theorem prefixOf_head (l : List (String × String)) (u : String) :
    prefixOf l u = ((l.filter fun m => m.2 == u).map Prod.fst).head? := by
  unfold prefixOf
  rw [List.head?_map, List.head?_filter]

theorem concerning_mappings (u : String) (seen : List EName) (l : List (String × String)) (rest : List BCall) :
    concerning u seen (l.map (fun m => .namespace m.1 m.2) ++ rest) =
      ((l.filter fun m => m.2 == u).map fun m => some m.1) ++ concerning u seen rest := by
  induction l with
  | nil => rfl
  | cons m l ih =>
    simp only [List.map_cons, List.cons_append, concerning, List.filter_cons]
    split
    · rename_i h
      simp [h, ih]
    · rename_i h
      simp [h, ih]

/-- Calls for attributes concern a URI as often as you like, if an attribute is in that namespace. -/
theorem concerning_attributes (u : String) (seen : List EName) (l : List (EName × String)) (rest : List BCall) :
    ∃ k seen', concerning u seen (l.map (fun a => .attribute a.1 a.2) ++ rest) = List.replicate k none ++ concerning u seen' rest ∧
      (0 < k → ∃ a ∈ l, a.1.ns = u) := by
  induction l generalizing seen with
  | nil => exact ⟨0, seen, rfl, by simp⟩
  | cons a l ih =>
    obtain ⟨k, seen', h1, h2⟩ := ih (a.1 :: seen)
    simp only [List.map_cons, List.cons_append, concerning]
    split
    · rename_i h
      exact ⟨k + 1, seen', by rw [h1]; rfl, fun _ => ⟨a, by simp, h.1⟩⟩
    · exact ⟨k, seen', h1, fun hk => by
        obtain ⟨b, hb, hbu⟩ := h2 hk
        exact ⟨b, by simp [hb], hbu⟩⟩

theorem concerning_derived (u : String) (own : List (String × String)) (attrs : List (EName × String)) (flat : List (String × String)) :
    ∃ k, concerning u [] (derivedCalls own attrs flat) =
        ((own.filter fun m => m.2 == u).map fun m => some m.1) ++ (List.replicate k none ++ (flat.filter fun m => m.2 == u).map fun m => some m.1) ∧
      (0 < k → ∃ a ∈ attrs, a.1.ns = u) := by
  unfold derivedCalls
  rw [concerning_mappings]
  obtain ⟨k, seen', h1, h2⟩ := concerning_attributes u [] attrs (flat.map fun m => .namespace m.1 m.2)
  refine ⟨k, ?_, h2⟩
  rw [h1]
  have := concerning_mappings u seen' flat []
  simp only [List.append_nil] at this
  rw [this]
  simp [concerning]

theorem dropWhile_replicate (k : Nat) (l : List (Option String)) :
    (List.replicate k none ++ l).dropWhile Option.isNone = l.dropWhile Option.isNone := by
  induction k with
  | zero => simp
  | succ k ih => simp [List.replicate_succ, ih]

/-- What is requested is what is wanted. -/
theorem request_wanted (name : EName) (scope own : List (String × String)) (attrs : List (EName × String)) (flat : List (String × String))
    (hattrs : ∀ a ∈ attrs, (prefixOf own a.1.ns).isSome ∨ prefixOf scope a.1.ns = none) (u : String) :
    (requestOf (decide (u = name.ns)) (prefixOf scope u) (concerning u [] (derivedCalls own attrs flat))).map Prod.fst =
        wanted name scope (own ++ flat) u ∧
      ∀ p, requestOf (decide (u = name.ns)) (prefixOf scope u) (concerning u [] (derivedCalls own attrs flat)) = some (p, true) →
        ∃ a ∈ attrs, a.1.ns = u := by
  obtain ⟨k, hc, hk⟩ := concerning_derived u own attrs flat
  rw [hc]
  have hgiven : prefixOf (own ++ flat) u =
      (((own.filter fun m => m.2 == u).map Prod.fst) ++ (flat.filter fun m => m.2 == u).map Prod.fst).head? := by
    rw [prefixOf_head, List.filter_append, List.map_append]
  have hown : prefixOf own u = ((own.filter fun m => m.2 == u).map Prod.fst).head? := prefixOf_head own u
  have hsome : ∀ l : List (String × String), (l.map fun m => some m.1) = (l.map Prod.fst).map some := by
    intro l; simp
  rw [hsome, hsome]
  generalize (own.filter fun m => m.2 == u).map Prod.fst = o at hgiven hown ⊢
  generalize (flat.filter fun m => m.2 == u).map Prod.fst = f at hgiven ⊢
  have hnone : ∀ l : List (Option String), none ∉ o.map some ∧ none ∉ f.map some := by
    intro l
    exact ⟨by simp, by simp⟩
  have hmem : none ∈ o.map some ++ (List.replicate k none ++ f.map some) → 0 < k := by
    intro h
    simp only [List.mem_append, List.mem_map, reduceCtorEq, and_false, exists_false, false_or, or_false, List.mem_replicate] at h
    omega
  have hdec : ∀ (l : List (Option String)) (p q : String), some (p, decide (none ∈ l)) = some (q, true) → none ∈ l := by
    intro l p q h
    simpa using (Prod.mk.inj (Option.some.inj h)).2
  cases hs : prefixOf scope u with
  | none =>
    simp only [requestOf, wanted, hs, Option.isSome_none, Bool.false_eq_true, and_false, if_false, hgiven]
    cases o with
    | cons x o =>
      simp only [List.map_cons, List.cons_append, List.dropWhile_cons, Option.isNone_some, Bool.false_eq_true, if_false, Option.map_some,
        List.head?_cons, true_and]
      intro p h
      exact hk (hmem (List.mem_cons_of_mem _ (hdec _ _ _ h)))
    | nil =>
      simp only [List.map_nil, List.nil_append, dropWhile_replicate]
      cases f with
      | nil =>
        simp
      | cons x f =>
        simp only [List.map_cons, List.dropWhile_cons, Option.isNone_some, Bool.false_eq_true, if_false, Option.map_some,
        List.head?_cons, true_and]
        intro p h
        have := hdec _ _ _ h
        simp at this
  | some q =>
    simp only [requestOf, wanted, hs, Option.isSome_some, and_true, decide_eq_true_eq]
    split
    · refine ⟨rfl, fun p h => hk (hmem (hdec _ _ _ h))⟩
    · rw [hgiven]
      cases o with
      | cons x o =>
        simp only [List.map_cons, List.cons_append, List.head?_cons, Option.map_some, Option.getD_some, true_and]
        intro p h
        exact hk (hmem (hdec _ _ _ h))
      | nil =>
        have hk0 : k = 0 := by
          rcases Nat.eq_zero_or_pos k with h | h
          · exact h
          · obtain ⟨a, ha, hau⟩ := hk h
            rcases hattrs a ha with h1 | h1
            · rw [hau, hown] at h1; cases h1
            · rw [hau, hs] at h1; cases h1
        subst hk0
        cases f with
        | nil => simp
        | cons x f =>
          simp only [List.map_nil, List.nil_append, List.replicate_zero, List.map_cons, List.head?_cons, Option.map_some, Option.getD_some,
            true_and]
          intro p h
          have := hdec _ _ _ h
          simp at this

/-! ### The calls of derived code -/

theorem runCalls_append (dbg : Bool) (l l' : List BCall) (b b1 b2 : Builder) (rs rs' : List (Except SErr Unit))
    (h : runCalls dbg l b = .ok (b1, rs)) (h' : runCalls dbg l' b1 = .ok (b2, rs')) : runCalls dbg (l ++ l') b = .ok (b2, rs ++ rs') := by
  induction l generalizing b rs with
  | nil => cases h; exact h'
  | cons c l ih =>
    cases c with
    | «namespace» p u =>
      simp only [runCalls, List.cons_append] at h ⊢
      split at h
      · cases h
      · exact ih _ _ h
    | «attribute» n v =>
      simp only [runCalls, List.cons_append] at h ⊢
      split at h
      · cases h
      · split at h
        · cases h
        · rename_i h4
          cases h
          rw [ih _ _ h4]
          rfl

/-- A program does certain calls if it returns `Ok`. -/
def Calls (dbg : Bool) (p : AttrProg) (l : List BCall) : Prop :=
  ∀ b b', p.run dbg b = .ok (b', .ok ()) → ∃ rs, runCalls dbg l b = .ok (b', rs)

theorem calls_andThen {dbg : Bool} {p q : AttrProg} {l l' : List BCall} (hp : Calls dbg p l) (hq : Calls dbg q l') :
    Calls dbg (p.andThen q) (l ++ l') := by
  intro b b' h
  have key : ∀ (p : AttrProg) b, (p.andThen q).run dbg b = .ok (b', .ok ()) →
      ∃ b1, p.run dbg b = .ok (b1, .ok ()) ∧ q.run dbg b1 = .ok (b', .ok ()) := by
    intro p
    induction p with
    | ret r =>
      intro b h
      cases r with
      | error e => simp only [AttrProg.andThen, AttrProg.run] at h; cases h
      | ok u => exact ⟨b, rfl, h⟩
    | «namespace» pf u k ih =>
      intro b h
      simp only [AttrProg.andThen, AttrProg.run] at h ⊢
      split at h
      · cases h
      · exact ih _ h
    | «attribute» n v k ih =>
      intro b h
      simp only [AttrProg.andThen, AttrProg.run] at h ⊢
      split at h
      · cases h
      · exact ih _ _ h
  obtain ⟨b1, h1, h2⟩ := key p b h
  obtain ⟨rs, g1⟩ := hp b b1 h1
  obtain ⟨rs', g2⟩ := hq b1 b' h2
  exact ⟨_, runCalls_append dbg l l' b b1 b' rs rs' g1 g2⟩

theorem calls_nothing (dbg : Bool) : Calls dbg (.ret (.ok ())) [] := by
  intro b b' h
  cases h
  exact ⟨[], rfl⟩

theorem calls_namespaces (dbg : Bool) (l : List (String × String)) : Calls dbg (writeNamespaces l) (l.map fun m => .namespace m.1 m.2) := by
  induction l with
  | nil => exact calls_nothing dbg
  | cons m l ih =>
    intro b b' h
    simp only [writeNamespaces, AttrProg.run] at h
    simp only [List.map_cons, runCalls]
    cases hn : b.namespace dbg m.1 m.2 with
    | error f => rw [hn] at h; cases h
    | ok b1 => rw [hn] at h; exact ih _ _ h

theorem calls_attr (dbg : Bool) (o : Bool) (t : TextTy) (n : EName) (v : Val) :
    Calls dbg (writeAttr o t n v) (((attrText o t v).map fun s => (n, s)).toList.map fun a => .attribute a.1 a.2) := by
  have key : ∀ tv, Calls dbg (match t.toText tv with
      | some s => .attribute n s fun r => .ret r
      | none => .ret (.ok ())) (((t.toText tv).map fun s => (n, s)).toList.map fun a => .attribute a.1 a.2) := by
    intro tv
    cases t.toText tv with
    | none => exact calls_nothing dbg
    | some s =>
      intro b b' h
      simp only [AttrProg.run] at h
      simp only [Option.map_some, Option.toList_some, List.map_cons, List.map_nil, runCalls]
      cases hn : b.attribute n s with
      | error f => rw [hn] at h; cases h
      | ok x =>
        obtain ⟨b1, r⟩ := x
        rw [hn] at h
        cases h
        exact ⟨_, rfl⟩
  have nothing := calls_nothing dbg
  unfold writeAttr attrText
  cases o with
  | false =>
    cases v with
    | text tv => exact key tv
    | opt w =>
      simp only
      split <;> first | exact nothing | simp_all
    | _ => exact nothing
  | true =>
    cases v with
    | text tv => exact nothing
    | opt w =>
      cases w with
      | none => exact nothing
      | some w =>
        cases w with
        | text tv => exact key tv
        | _ => exact nothing
    | _ => exact nothing

theorem calls_attrFields (dbg : Bool) (fs : List Field) (vs : List Val) :
    Calls dbg (writeAttrFields fs vs) ((structAttrs fs vs).map fun a => .attribute a.1 a.2) := by
  induction fs generalizing vs with
  | nil => cases vs <;> exact calls_nothing dbg
  | cons f fs ih =>
    cases vs with
    | nil => exact calls_nothing dbg
    | cons v vs =>
      simp only [writeAttrFields]
      cases hk : f.kind with
      | «attribute» o t =>
        have := calls_andThen (calls_attr dbg o t f.name.expanded v) (ih vs)
        rw [← List.map_append] at this
        have heq : structAttrs (f :: fs) (v :: vs) = ((attrText o t v).map fun s => (f.name.expanded, s)).toList ++ structAttrs fs vs := by
          simp only [structAttrs, List.zip_cons_cons, List.filterMap_cons, hk]
          cases attrText o t v <;> simp
        rw [heq]
        exact this
      | _ =>
        have heq : structAttrs (f :: fs) (v :: vs) = structAttrs fs vs := by simp [structAttrs, hk]
        rw [heq]
        exact ih vs

theorem calls_flattenAttrs (dbg : Bool) (env : Env) (fs : List Field) :
    Calls dbg (writeFlattenAttrs env fs) ((flatMappings env fs).map fun m => .namespace m.1 m.2) := by
  induction fs with
  | nil => exact calls_nothing dbg
  | cons f fs ih =>
    simp only [writeFlattenAttrs]
    cases hk : f.kind with
    | flatten e =>
      have heq : flatMappings env (f :: fs) = (env.enm e).namespaces ++ flatMappings env fs := by simp [flatMappings, hk]
      rw [heq, List.map_append]
      exact calls_andThen (calls_namespaces dbg _) ih
    | _ =>
      have heq : flatMappings env (f :: fs) = flatMappings env fs := by simp [flatMappings, hk]
      rw [heq]
      exact ih

theorem calls_struct (dbg : Bool) (env : Env) (i : Nat) (vs : List Val) :
    Calls dbg (writeAttributes env (.strct i) (.strct vs))
      (derivedCalls (env.strct i).namespaces (structAttrs (env.strct i).fields vs) (flatMappings env (env.strct i).fields)) :=
  calls_andThen (calls_namespaces dbg _) (calls_andThen (calls_attrFields dbg _ _) (calls_flattenAttrs dbg env _))

theorem calls_enum (dbg : Bool) (env : Env) (i : Nat) (v : Val) :
    Calls dbg (writeAttributes env (.enm i) v) (derivedCalls (env.enm i).namespaces [] []) := by
  have h : writeAttributes env (.enm i) v = writeNamespaces (env.enm i).namespaces := by unfold writeAttributes; rfl
  rw [h]
  have := calls_namespaces dbg (env.enm i).namespaces
  unfold derivedCalls
  simpa using this

/-! ### What was written stays -/

theorem write_extends (sink : Sink) (s : WState) (e : WEvent) (a : Option (EName × List (EName × String))) :
    ∃ l, (s.write sink e a).1.out = s.out ++ l := by
  unfold WState.write
  split
  · exact ⟨[], by simp⟩
  · split
    · exact ⟨[], by simp⟩
    · exact ⟨[e], rfl⟩

theorem start_extends {sink : Sink} {b : Builder} {s s' : WState} {r : Except SErr Namespaces} (h : b.start sink s = .ok (s', r)) :
    ∃ l, s'.out = s.out ++ l := by
  unfold Builder.start at h
  split at h
  · cases h
  · split at h
    · cases h
    · split at h
      · cases h
      · have key : ∀ e a x, s.write sink e a = x → ∃ l, x.1.out = s.out ++ l := by
          rintro e a _ rfl
          exact write_extends sink s e a
        split at h
        · rename_i h1; cases h; exact key _ _ _ h1
        · rename_i h1; cases h; exact key _ _ _ h1

theorem run_extends (dbg : Bool) (sink : Sink) {hs : List Handle} (p : Prog hs) (st : HStates hs) (s s' : WState) (r : Except SErr Unit)
    (h : p.run dbg sink st s = .ok (s', r)) : ∃ l, s'.out = s.out ++ l := by
  have trans : ∀ {a b c : List WEvent}, (∃ l, b = a ++ l) → (∃ l, c = b ++ l) → ∃ l, c = a ++ l := by
    rintro a b c ⟨l, rfl⟩ ⟨l', rfl⟩
    exact ⟨l ++ l', by simp⟩
  induction p generalizing s with
  | ret r => simp only [Prog.run] at h; cases h; exact ⟨[], by simp⟩
  | element name k ih =>
    cases st with | cons n rest => exact ih _ _ h
  | text t k ih =>
    simp only [Prog.run] at h
    exact trans (write_extends sink s (.chars t) none) (ih _ _ _ h)
  | «namespace» p u k ih =>
    cases st with
    | cons b rest =>
      simp only [Prog.run] at h
      split at h
      · cases h
      · exact ih _ _ h
  | «attribute» n v k ih =>
    cases st with
    | cons b rest =>
      simp only [Prog.run] at h
      split at h
      · cases h
      · exact ih _ _ _ h
  | start ok fail ih1 ih2 =>
    cases st with
    | cons b rest =>
      simp only [Prog.run] at h
      split at h
      · cases h
      · rename_i h1; exact trans (start_extends h1) (ih1 _ _ h)
      · rename_i h1; exact trans (start_extends h1) (ih2 _ _ _ h)
  | finish k ih =>
    cases st with
    | cons b rest =>
      simp only [Prog.run] at h
      exact trans (write_extends sink s .stop none) (ih _ _ _ h)
  | dropBuilder k ih => cases st with | cons b rest => exact ih _ (s.poisonWith .builderDropped) h
  | dropWriter k ih => cases st with | cons b rest => exact ih _ (s.poisonWith .writerDropped) h
  | forgetBuilder k ih => cases st with | cons b rest => exact ih _ _ h
  | forgetWriter k ih => cases st with | cons b rest => exact ih _ _ h

end SX
