import Verif.Proof.Given

/-
C61: the prefixes given in the declarations of types, and what the documentation says about them.
-/
namespace SX
open Spec

/-- C61: if the prefixes wanted are in no conflict, the mappings in force in an element are those wanted, and of the parent's those whose URI and
prefix nobody wants. -/
theorem C61_given (dbg : Bool) (name : EName) (parent : Option Namespaces) (hp : ∀ n, parent = some n → n.Ok) (own : List (String × String))
    (attrs : List (EName × String)) (flat : List (String × String)) (b : Builder) (rs : List (Except SErr Unit))
    (h : runCalls dbg (derivedCalls own attrs flat) (Builder.new name ((parent.map fun n => n.child name.ns).getD [])) = .ok (b, rs)) :
    let scope := (parent.map Namespaces.byPrefix).getD []
    (∀ a ∈ attrs, (prefixOf own a.1.ns).isSome ∨ prefixOf scope a.1.ns = none) →
    NoConflict (wanted name scope (own ++ flat)) (attrs.map Prod.fst) →
    ∃ n, b.ns.finalize = .ok n ∧ ∀ p u, (p, u) ∈ n.byPrefix ↔ wanted name scope (own ++ flat) u = some p ∨
      ((p, u) ∈ scope ∧ wanted name scope (own ++ flat) u = none ∧ ∀ v, wanted name scope (own ++ flat) v ≠ some p) := by
  intro scope hattrs hc
  obtain ⟨n, reqs, asg, hn, hasc, hreq, hasg, -, hiff⟩ := C48_prefixes dbg name parent hp _ b rs h
  have hw := fun u => request_wanted name scope own attrs flat hattrs u
  have hreqs : ∀ r ∈ reqs, wanted name scope (own ++ flat) r.url = some r.pfx := by
    intro r hr
    rw [← (hw r.url).1, show requestOf _ _ _ = some (r.pfx, r.needs) from (hreq r).mp hr]
    rfl
  have hasgEq : asg = reqs.map fun r => (r.url, r.pfx) := by
    refine assigned_noConflict hasg ?_ (by simp) ?_
    · have hu : reqs.Pairwise fun r r' => r.url ≠ r'.url := by
        have := ascending_nodup hasc
        simpa [List.Nodup, List.pairwise_map] using this
      refine List.Pairwise.imp_of_mem ?_ hu
      intro r r' hr hr' hne he
      exact hne (hc.1 _ _ _ (hreqs r hr) (he ▸ hreqs r' hr'))
    · rintro r hr ⟨h1, h2⟩
      obtain ⟨a, ha, hau⟩ := (hw r.url).2 r.pfx (by rw [← h1]; exact (hreq r).mp hr)
      have := hc.2 a.1 (List.mem_map.mpr ⟨a, ha, rfl⟩)
      rw [hau, hreqs r hr, h2] at this
      exact this rfl
  have hmem : ∀ u p, (u, p) ∈ asg ↔ wanted name scope (own ++ flat) u = some p := by
    intro u p
    rw [hasgEq, List.mem_map]
    constructor
    · rintro ⟨r, hr, he⟩
      obtain ⟨rfl, rfl⟩ := Prod.mk.inj he
      exact hreqs r hr
    · intro h1
      rw [← (hw u).1, Option.map_eq_some_iff] at h1
      obtain ⟨⟨p', d⟩, h2, rfl⟩ := h1
      exact ⟨⟨u, p', d⟩, (hreq _).mpr h2, rfl⟩
  refine ⟨n, hn, fun p u => ?_⟩
  rw [hiff p u, hmem]
  refine or_congr Iff.rfl (and_congr Iff.rfl (and_congr ?_ ?_))
  · rw [← (hw u).1, Option.map_eq_none_iff]
  · exact forall_congr' fun v => by rw [hmem]

/-- The start tag of a value of a derived struct. -/
def DerivedTag (t : Tag) : Prop :=
  ∃ (dbg : Bool) (env : Env) (i : Nat) (vs : List Val) (parent : Option Namespaces) (b : Builder) (n : Namespaces),
    (∀ m, parent = some m → m.Ok) ∧
    (writeAttributes env (.strct i) (.strct vs)).run dbg (Builder.new t.name ((parent.map fun m => m.child t.name.ns).getD [])) = .ok (b, .ok ()) ∧
    b.ns.finalize = .ok n ∧ t.scope = (parent.map Namespaces.byPrefix).getD [] ∧ t.own = (env.strct i).namespaces ∧
    t.flat = flatMappings env (env.strct i).fields ∧ t.attrs = (structAttrs (env.strct i).fields vs).map Prod.fst ∧ t.result = n.byPrefix

/-- C61, for derived structs. -/
theorem C61_struct (t : Tag) (ht : DerivedTag t) (hattrs : ∀ a ∈ t.attrs, (prefixOf t.own a.ns).isSome ∨ prefixOf t.scope a.ns = none)
    (hc : NoConflict (wanted t.name t.scope (t.own ++ t.flat)) t.attrs) (p u : String) :
    (p, u) ∈ t.result ↔ wanted t.name t.scope (t.own ++ t.flat) u = some p ∨
      ((p, u) ∈ t.scope ∧ wanted t.name t.scope (t.own ++ t.flat) u = none ∧ ∀ v, wanted t.name t.scope (t.own ++ t.flat) v ≠ some p) := by
  obtain ⟨dbg, env, i, vs, parent, b, n, hp, hrun, hn, h1, h2, h3, h4, h5⟩ := ht
  obtain ⟨rs, hcalls⟩ := calls_struct dbg env i vs _ b hrun
  rw [h5, h1, h2, h3]
  rw [h4, h1, h2] at hattrs
  rw [h1, h2, h3, h4] at hc
  obtain ⟨n', hn', hiff⟩ := C61_given dbg t.name parent hp _ _ _ b rs hcalls
    (fun a ha => hattrs a.1 (List.mem_map.mpr ⟨a, ha, rfl⟩)) hc
  rw [hn] at hn'
  cases hn'
  exact hiff p u

/-- C61, for derived enums. -/
theorem C61_enum (dbg : Bool) (env : Env) (i : Nat) (v : Val) (name : EName) (parent : Option Namespaces) (hp : ∀ n, parent = some n → n.Ok)
    (b : Builder)
    (h : (writeAttributes env (.enm i) v).run dbg (Builder.new name ((parent.map fun m => m.child name.ns).getD [])) = .ok (b, .ok ())) :
    let scope := (parent.map Namespaces.byPrefix).getD []
    let own := (env.enm i).namespaces
    NoConflict (wanted name scope own) [] →
    ∃ n, b.ns.finalize = .ok n ∧ ∀ p u, (p, u) ∈ n.byPrefix ↔ wanted name scope own u = some p ∨
      ((p, u) ∈ scope ∧ wanted name scope own u = none ∧ ∀ v, wanted name scope own v ≠ some p) := by
  intro scope own hc
  obtain ⟨rs, hcalls⟩ := calls_enum dbg env i v _ b h
  have := C61_given dbg name parent hp _ _ _ b rs hcalls (by simp) (by simpa using hc)
  simpa using this

/-- The prefix wanted, without a parent. -/
theorem wanted_root (name : EName) (given : List (String × String)) (hu : (given.map Prod.snd).Nodup) (u p : String) :
    wanted name [] given u = some p ↔ (p, u) ∈ given := by
  simp only [wanted, prefixOf, List.find?_nil, Option.map_none, Option.isSome_none, Bool.false_eq_true, and_false, if_false,
    Option.map_eq_some_iff]
  constructor
  · rintro ⟨x, hx, rfl⟩
    have hm := List.mem_of_find?_eq_some hx
    have hxu : x.2 = u := by simpa using List.find?_some hx
    rw [← hxu]
    exact hm
  · intro hm
    refine ⟨(p, u), ?_, rfl⟩
    cases hf : given.find? fun x => x.2 == u with
    | none =>
      rw [List.find?_eq_none] at hf
      exact absurd (by simp) (hf (p, u) hm)
    | some x =>
      have hx := List.mem_of_find?_eq_some hf
      have hxu : x.2 = u := by simpa using List.find?_some hf
      obtain ⟨i, hi⟩ := List.mem_iff_getElem?.mp hx
      obtain ⟨j, hj⟩ := List.mem_iff_getElem?.mp hm
      have hi' : (given.map Prod.snd)[i]? = some u := by simp [hi, hxu]
      have hj' : (given.map Prod.snd)[j]? = some u := by simp [hj]
      have hij : i = j := by
        have hil : i < (given.map Prod.snd).length := by
          rw [List.getElem?_eq_some_iff] at hi'; exact hi'.1
        exact (List.getElem?_inj hil hu).mp (hi'.trans hj'.symm)
      subst hij
      rw [hi] at hj
      exact congrArg some (Option.some.inj hj)

/-- C61, for documents: if no URI and no prefix is mapped twice by a struct and its flattened fields, the root element declares exactly those
mappings.  (Attributes are in no namespace, that of `xml`, or one with a prefix that is not empty, as the macro ensures.) -/
theorem C61_root (dbg : Bool) (sink : Sink) (env : Env) (name : EName) (i : Nat) (vs : List Val) (s : WState) (r : Except SErr Unit)
    (h : serializeVal dbg sink env name (.strct i) (.strct vs) = .ok (s, r)) (q : WName) (as : List (WName × String))
    (ns : List (String × String)) (hout : s.out.head? = some (.start q as ns)) :
    let given := (env.strct i).namespaces ++ flatMappings env (env.strct i).fields
    (given.map Prod.fst).Nodup → (given.map Prod.snd).Nodup →
    (∀ a ∈ structAttrs (env.strct i).fields vs, a.1.ns ∉ given.map Prod.snd ∨ ∃ p, p ≠ "" ∧ (p, a.1.ns) ∈ given) →
    ∀ m, m ∈ ns ↔ m ∈ given := by
  intro given hpre hurl hattrs
  have hw := wanted_root name given hurl
  unfold serializeVal serializeTo at h
  simp only at h
  cases hrun : (writeAttributes env (.strct i) (.strct vs)).run dbg (Builder.new name []) with
  | error f => rw [hrun] at h; cases h
  | ok x =>
    obtain ⟨b, r0⟩ := x
    rw [hrun] at h
    cases r0 with
    | error e => cases h; cases hout
    | ok _ =>
      obtain ⟨rs, hcalls⟩ := calls_struct dbg env i vs _ b hrun
      have hc : NoConflict (wanted name [] given) ((structAttrs (env.strct i).fields vs).map Prod.fst) := by
        constructor
        · intro u v p h1 h2
          rw [hw] at h1 h2
          obtain ⟨j, hj⟩ := List.mem_iff_getElem?.mp h1
          obtain ⟨k, hk⟩ := List.mem_iff_getElem?.mp h2
          have hj' : (given.map Prod.fst)[j]? = some p := by simp [hj]
          have hk' : (given.map Prod.fst)[k]? = some p := by simp [hk]
          have hjk : j = k := by
            have hil : j < (given.map Prod.fst).length := by
              rw [List.getElem?_eq_some_iff] at hj'; exact hj'.1
            exact (List.getElem?_inj hil hpre).mp (hj'.trans hk'.symm)
          subst hjk
          rw [hj] at hk
          exact (Prod.mk.inj (Option.some.inj hk)).2
        · intro a ha h1
          obtain ⟨x, hx, rfl⟩ := List.mem_map.mp ha
          rw [hw] at h1
          rcases hattrs x hx with h2 | ⟨p, hp, h2⟩
          · exact h2 (List.mem_map.mpr ⟨_, h1, rfl⟩)
          · have e1 := (hw x.1.ns "").mpr h1
            have e2 := (hw x.1.ns p).mpr h2
            rw [e1] at e2
            exact hp (Option.some.inj e2).symm
      obtain ⟨n, hn, hiff⟩ := C61_given dbg name none (by simp) _ _ _ b rs hcalls (fun a ha => .inr rfl) hc
      have hns : ns = n.byPrefix := by
        simp only [Builder.start, hn] at h
        cases h1 : n.resolveElement b.name with
        | error f => rw [h1] at h; cases h
        | ok q1 =>
          rw [h1] at h
          simp only at h
          cases h2 : resolveAttrs n b.attrs with
          | error f => rw [h2] at h; cases h
          | ok as1 =>
            rw [h2] at h
            simp only [WState.write] at h
            cases h3 : sink [] (.start q1 as1 n.byPrefix) with
            | some m => rw [h3] at h; cases h; cases hout
            | none =>
              rw [h3] at h
              simp only [List.nil_append] at h
              have key : ∀ l, s.out = .start q1 as1 n.byPrefix :: l → ns = n.byPrefix := by
                intro l hl
                rw [hl] at hout
                cases hout
                rfl
              split at h
              · cases h
              · rename_i h4
                cases h
                obtain ⟨l, hl⟩ := run_extends _ _ _ _ _ _ _ h4
                exact key l (by simpa [WState.poisonWith] using hl)
              · rename_i s4 h4
                obtain ⟨l, hl⟩ := run_extends _ _ _ _ _ _ _ h4
                obtain ⟨l', hl'⟩ := write_extends sink s4 .stop none
                have h5 : (s4.write sink .stop none).1 = s := congrArg Prod.fst (Except.ok.inj h)
                rw [h5, hl] at hl'
                exact key (l ++ l') (by simpa using hl')
      intro m
      rw [hns, show m = (m.1, m.2) from rfl, hiff]
      simp only [Option.map_none, Option.getD_none, List.not_mem_nil, false_and, or_false]
      exact hw m.2 m.1

/-! ### Examples, and what the documentation says -/

section
attribute [local semireducible] writeChildren writeField writeVec writeElemFields writeFlattens natDigits

def ExP.name (ns loc : String) : DName := { ns := if ns = "" then none else some ns, loc := loc }

/-- Types with mappings: `0` has those of `own`, an attribute in `urn:b` and a flattened field; the mappings of its type are `flat`. -/
def ExP.env (own flat : List (String × String)) : Env where
  strct _ := {
    root := ExP.name "" "r", namespaces := own,
    fields := [
      { name := ExP.name "urn:b" "x", kind := .attribute false .bool, default := none },
      { name := ExP.name "" "f", kind := .flatten 0, default := none } ] }
  enm _ := { ident := "E", root := ExP.name "" "e", namespaces := flat, variants := [{ name := ExP.name "urn:a" "u", slot := none, skip := false }] }

def ExP.value : List Val := [.text (.bool true), .enm 0 none]

/-- Below the mappings of `ExW.outer`: `p` for `urn:a`, `q` for `urn:b`. -/
def ExP.tag (own flat : List (String × String)) (scope result : List (String × String)) : Tag where
  name := { ns := "", loc := "r" }
  scope := scope
  own := own
  flat := flat
  attrs := [{ ns := "urn:b", loc := "x" }]
  result := result

/-- C61: the parent's prefix is not used, if the element is not itself in that namespace: against `lib.rs:230-231`. -/
theorem C61_parent_refuted : ∃ t, DerivedTag t ∧ ¬ DocParent t := by
  refine ⟨ExP.tag [("b", "urn:b")] [] [("p", "urn:a"), ("q", "urn:b")] [("b", "urn:b"), ("p", "urn:a")],
    ⟨true, ExP.env [("b", "urn:b")] [], 0, ExP.value, some ExW.outer, _, _, ?_, rfl, rfl, rfl, rfl, rfl, rfl, rfl⟩, ?_⟩
  · intro m hm
    cases hm
    exact ExW.outer_ok
  · intro h
    have := h "b" "q" "urn:b" (by simp [ExP.tag]) (by simp [ExP.tag])
    simp [ExP.tag] at this

/-- C61: the mapping of a flattened field can win over that of the containing type: against `lib.rs:232-233`. -/
theorem C61_flatten_refuted : ∃ t, DerivedTag t ∧ ¬ DocFlatten t := by
  refine ⟨ExP.tag [("b", "urn:b")] [("b", "urn:a")] [] [("b", "urn:a"), ("b2", "urn:b")],
    ⟨true, ExP.env [("b", "urn:b")] [("b", "urn:a")], 0, ExP.value, none, _, _, ?_, rfl, rfl, rfl, rfl, rfl, rfl, rfl⟩, ?_⟩
  · intro m hm
    cases hm
  · intro h
    have := h (by simp [ExP.tag]) (by simp [ExP.tag]) rfl (by simp [ExP.tag]) ("b", "urn:b") (by simp [ExP.tag])
    simp [ExP.tag] at this

/-- C61: a new prefix is made up instead of the given one, if the namespace is also the default: against `lib.rs:234-235`. -/
theorem C61_default_refuted : ∃ t, DerivedTag t ∧ ¬ DocDefault t := by
  refine ⟨ExP.tag [("", "urn:b"), ("b", "urn:b")] [] [] [("ns1", "urn:b")],
    ⟨true, ExP.env [("", "urn:b"), ("b", "urn:b")] [], 0, ExP.value, none, _, _, ?_, rfl, rfl, rfl, rfl, rfl, rfl, rfl⟩, ?_⟩
  · intro m hm
    cases hm
  · intro h
    have := h "b" "urn:b" (by simp) (by simp [ExP.tag]) (by simp [ExP.tag]) (by simp [ExP.tag]) (by simp [ExP.tag]) rfl rfl
      (by
        intro q v hm hv
        simp only [ExP.tag, List.mem_cons, Prod.mk.injEq, List.not_mem_nil, or_false] at hm
        rcases hm with ⟨-, rfl⟩ | ⟨-, rfl⟩ <;> exact absurd rfl hv)
    simp [ExP.tag] at this

/-- Without conflicts: the type's `b` and the flattened type's `a` are used, and replace the mappings of the parent. -/
example : DerivedTag (ExP.tag [("b", "urn:b")] [("c", "urn:c")] [("p", "urn:a"), ("q", "urn:b")] [("b", "urn:b"), ("c", "urn:c"), ("p", "urn:a")]) :=
  ⟨true, ExP.env [("b", "urn:b")] [("c", "urn:c")], 0, ExP.value, some ExW.outer, _, _,
    fun m hm => by cases hm; exact ExW.outer_ok, rfl, rfl, rfl, rfl, rfl, rfl, rfl⟩

example : NoConflict (wanted { ns := "", loc := "r" } [("p", "urn:a"), ("q", "urn:b")] ([("b", "urn:b")] ++ [("c", "urn:c")]))
    [{ ns := "urn:b", loc := "x" }] := by
  constructor
  · intro u v p h1 h2
    have hw : ∀ u, wanted { ns := "", loc := "r" } [("p", "urn:a"), ("q", "urn:b")] ([("b", "urn:b")] ++ [("c", "urn:c")]) u =
        if u = "urn:b" then some "b" else if u = "urn:c" then some "c" else none := by
      intro u
      have hne : ∀ v, ("urn:b" == v) = decide (v = "urn:b") ∧ ("urn:c" == v) = decide (v = "urn:c") := by
        intro v
        constructor <;> (rw [Bool.eq_iff_iff]; simp only [beq_iff_eq, decide_eq_true_eq]; exact eq_comm)
      by_cases h0 : u = ""
      · subst h0; decide
      · by_cases h1 : u = "urn:b"
        · subst h1; decide
        · by_cases h2 : u = "urn:c"
          · subst h2; decide
          · simp [wanted, prefixOf, h0, h1, h2, (hne u).1, (hne u).2]
    rw [hw] at h1 h2
    split at h1
    · split at h2
      · simp_all
      · split at h2
        · rw [← h1] at h2; exact absurd h2 (by decide)
        · cases h2
    · split at h1
      · split at h2
        · rw [← h1] at h2; exact absurd h2 (by decide)
        · split at h2
          · simp_all
          · cases h2
      · cases h1
  · intro a ha
    simp only [List.mem_singleton] at ha
    subst ha
    decide

/-- The root element of a document. -/
example : ∃ s, serializeVal true (fun _ _ => none) (ExP.env [("b", "urn:b")] [("a", "urn:a")]) { ns := "", loc := "r" } (.strct 0)
      (.strct ExP.value) = .ok (s, .ok ()) ∧
    s.out.head? = some (.start { pfx := none, loc := "r" } [({ pfx := some "b", loc := "x" }, "true")] [("a", "urn:a"), ("b", "urn:b")]) :=
  ⟨_, rfl, rfl⟩

example : ∃ s, serializeVal true (fun _ _ => none) (ExP.env [("b", "urn:b")] [("a", "urn:a")]) { ns := "", loc := "r" } (.strct 0)
      (.strct ExP.value) = .ok (s, .ok ()) ∧ ∃ q as ns, s.out.head? = some (.start q as ns) ∧ ∀ m, m ∈ ns ↔ m ∈ [("b", "urn:b"), ("a", "urn:a")] :=
  ⟨_, rfl, _, _, _, rfl, C61_root true (fun _ _ => none) (ExP.env [("b", "urn:b")] [("a", "urn:a")]) { ns := "", loc := "r" } 0 ExP.value _ _ rfl _ _ _ rfl
    (by decide) (by decide) (by
      intro a ha
      simp [structAttrs, ExP.env, ExP.value, ExP.name] at ha
      obtain ⟨t, -, rfl⟩ := ha
      exact .inr ⟨"b", by decide, List.mem_append_left _ (.head _)⟩)⟩

example := C61_enum true (ExP.env [] [("c", "urn:c")]) 0 (.enm 0 none) { ns := "", loc := "r" } (some ExW.outer) (fun m hm => by cases hm; exact ExW.outer_ok) _ rfl

end

end SX
