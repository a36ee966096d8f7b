import Verif.Props.Prefixes
import Verif.Proof.Given
import Verif.Proof.OpenSer
import Verif.Proof.WriterPlain
import Verif.Proof.DeriveSerTotal
import Verif.Spec.Scoped

/-
Derived serialization and elements in no namespace, exactly.
-/
namespace SX.Scoped
open Spec

/-! ### The mappings in force are determined -/

theorem ascending_ext {α : Type} (f : α → String) (l l' : List α) (h : Ascending (l.map f)) (h' : Ascending (l'.map f))
    (hm : ∀ x, x ∈ l ↔ x ∈ l') : l = l' := by
  have irrefl : ∀ a : String, compare a a ≠ .lt := by
    intro a h
    rw [Std.ReflCmp.compare_self (cmp := compare)] at h
    cases h
  induction l generalizing l' with
  | nil =>
    cases l' with
    | nil => rfl
    | cons x l' => exact absurd ((hm x).mpr List.mem_cons_self) (by simp)
  | cons x l ih =>
    cases l' with
    | nil => exact absurd ((hm x).mp List.mem_cons_self) (by simp)
    | cons y l' =>
      simp only [List.map_cons, Ascending, List.pairwise_cons, List.mem_map, forall_exists_index, and_imp, forall_apply_eq_imp_iff₂] at h h'
      have hxy : x = y := by
        rcases List.mem_cons.mp ((hm x).mp List.mem_cons_self) with e | hx
        · exact e
        · rcases List.mem_cons.mp ((hm y).mpr List.mem_cons_self) with e | hy
          · exact e.symm
          · have h1 := h'.1 _ hx
            have h2 := h.1 _ hy
            exact absurd (Std.TransCmp.lt_trans h1 h2) (irrefl _)
      subst hxy
      congr 1
      refine ih l' h.2 h'.2 ?_
      intro z
      constructor
      · intro hz
        rcases List.mem_cons.mp ((hm z).mp (List.mem_cons_of_mem _ hz)) with e | hz'
        · subst e; exact absurd (h.1 _ hz) (irrefl _)
        · exact hz'
      · intro hz
        rcases List.mem_cons.mp ((hm z).mpr (List.mem_cons_of_mem _ hz)) with e | hz'
        · subst e; exact absurd (h'.1 _ hz) (irrefl _)
        · exact hz'

theorem inForce_unique {name : EName} {scope : List (String × String)} {calls : List BCall} {m m' : List (String × String)}
    (h : InForce name scope calls m) (h' : InForce name scope calls m') : m = m' := by
  obtain ⟨reqs, asg, h1, h2, h3, h4, h5⟩ := h
  obtain ⟨reqs', asg', h1', h2', h3', h4', h5'⟩ := h'
  have hr : reqs = reqs' := ascending_ext _ _ _ h1 h1' fun r => by rw [h2, h2']
  subst hr
  have ha := C48_unique h3 h3'
  subst ha
  exact ascending_ext _ _ _ h4 h4' fun x => by obtain ⟨p, u⟩ := x; rw [h5, h5']

/-! ### The start tag of an element -/

/-- What `write_attributes` does for a value. -/
def attrsOf (env : Env) : Option (Ty × Val) → AttrProg
  | none => .ret (.ok ())
  | some (ty, v) => writeAttributes env ty v

/-- What `write_children` does for a value. -/
def childrenOf (env : Env) {o : Bool} {hs : List Handle} (x : Option (Ty × Val)) (k : WCont o hs) : Prog (.writer o :: hs) :=
  match x with
  | none => k (.ok ())
  | some (ty, v) => writeChildren env ty v k

theorem runItem_eq (env : Env) {o : Bool} {hs : List Handle} (it : Item) (k : WCont o hs) :
    runItem env it k = writeElem it.name (attrsOf env it.value) (fun k => childrenOf env it.value k) k := by
  obtain ⟨name, value⟩ := it
  cases value with
  | none => rfl
  | some x => rfl

/-- The start tag of an element whose name is in no namespace and that has a default namespace. -/
def Clash (name : EName) (m : Namespaces) : Prop := name.ns = "" ∧ ∃ u, ("", u) ∈ m.byPrefix

theorem byPrefix_none {m : Namespaces} : m.byPrefix.get "" = none ↔ ¬ ∃ u, ("", u) ∈ m.byPrefix := by
  rw [SMap.get_none]
  simp only [SMap.keys, List.mem_map, not_exists, not_and]
  constructor
  · intro h u hu; exact h ("", u) hu rfl
  · rintro h ⟨p, u⟩ hx rfl; exact h u hx

theorem builder_start {name : EName} {i r : List String} {b : Builder} (h : BuilderIs name i r true b) (hn : ElemNsOk r name) {m : Namespaces}
    (hm : b.ns.finalize = .ok m) (sink : Sink) (s : WState) :
    WriterIs r true m ∧ (Clash name m → b.start sink s = .error .panic) ∧
    (¬ Clash name m → ∃ q as, b.start sink s =
      match s.write sink (.start q as m.byPrefix) (some (name, b.attrs)) with
      | (s, .error e) => .ok (s, .error e)
      | (s, .ok ()) => .ok (s, .ok m)) := by
  obtain ⟨m', h1, h2, h3⟩ := nsFinalize_good h.good.ok h.good.noEmpty h.good.notXml
  rw [hm] at h1
  cases h1
  have hx : m.byUrl.get xmlNs = none := by
    have := h.noXml
    rw [finalize_get h3] at this
    simpa using this
  obtain ⟨as, has⟩ := ready_resolves h.good.ok h.ready h.noXml hm
  have hw : WriterIs r true m := by
    refine ⟨h2, ?_, hx⟩
    intro u hu
    obtain ⟨e, he, hr⟩ := h.required u hu
    rw [finalize_get h3] at he
    cases hg : m.byUrl.get u with
    | none => rw [hg] at he; simp at he
    | some e' =>
      rw [hg] at he
      simp only [Option.map_some, Option.some.injEq] at he
      subst he
      obtain ⟨p, hp⟩ := h2.ok.required _ _ hg hr
      exact ⟨p, (h2.ok.iff _ _).mpr ⟨e', hg, hp⟩⟩
  have hne : m.byUrl.get "" = none := h2.noEmpty
  have hxe : ("" : String) ≠ xmlNs := by decide
  refine ⟨hw, ?_, ?_⟩
  · rintro ⟨hns, hu⟩
    have hd : m.byPrefix.get "" ≠ none := fun hg => byPrefix_none.mp hg hu
    unfold Builder.start
    simp only [hm, h.name, Namespaces.resolveElement, hns, hne, if_neg hxe]
    cases hg : m.byPrefix.get "" with
    | none => exact absurd hg hd
    | some u => simp
  · intro hc
    have hq : ∃ q, m.resolveElement b.name = .ok q := by
      rw [h.name]
      unfold Namespaces.resolveElement
      by_cases hns : name.ns = ""
      · have hd : m.byPrefix.get "" = none := byPrefix_none.mpr fun hu => hc ⟨hns, hu⟩
        simp only [hns, hne, if_neg hxe, hd]
        exact ⟨_, rfl⟩
      · rcases hn with hn | hn | hn
        · rw [hn, hx]; exact ⟨_, rfl⟩
        · obtain ⟨p, hp⟩ := hw.mapped _ hn
          obtain ⟨e, he, ha⟩ := (h2.ok.iff _ _).mp hp
          have hreq : e.required = true := by
            obtain ⟨e1, he1, hr1⟩ := h.required _ hn
            rw [finalize_get h3, he] at he1
            simp only [Option.map_some, Option.some.injEq] at he1
            rw [← he1] at hr1
            exact hr1
          simp only [he, ha, hreq]
          exact ⟨_, rfl⟩
        · exact absurd hn hns
    obtain ⟨q, hq⟩ := hq
    refine ⟨q, as, ?_⟩
    rw [h.name] at hq
    unfold Builder.start
    simp only [hm, h.name, hq, has]
    split <;> simp_all

/-- The value of an item is one of its type, as far as one can see from outside. -/
def ValueOk : Option (Ty × Val) → Prop
  | none => True
  | some (.text _, _) => True
  | some (.strct _, v) => ∃ vs, v = .strct vs
  | some (.enm _, _) => True

/-- The namespaces a value declares for itself. -/
def valueNs (env : Env) : Option (Ty × Val) → List (String × String)
  | none => []
  | some (ty, _) => declaredNs env ty

theorem tag (dbg : Bool) {env : Env} (henv : NamesDeclared env) (hd : AttrsDistinct env) (name : EName) (x : Option (Ty × Val)) (hx : ValueOk x)
    (parent : Option Namespaces) (hp : ∀ n, parent = some n → n.Ok) (i r : List String)
    (hb : BuilderIs name i r true (Builder.new name ((parent.map fun n => n.child name.ns).getD []))) :
    ∃ b m r', (attrsOf env x).run dbg (Builder.new name ((parent.map fun n => n.child name.ns).getD [])) = .ok (b, .ok ()) ∧
      BuilderIs name i r' true b ∧ b.ns.finalize = .ok m ∧ InForce name ((parent.map Namespaces.byPrefix).getD []) (itemCalls env x) m.byPrefix ∧
      (∀ u ∈ r, u ∈ r') ∧ (∀ u ∈ urls (valueNs env x), u ∈ r') ∧ ItemsOk (itemChildren env x) r' := by
  have calls : ∀ b l, (∀ b b', (attrsOf env x).run dbg b = .ok (b', .ok ()) → ∃ rs, runCalls dbg l b = .ok (b', rs)) → itemCalls env x = l →
      (attrsOf env x).run dbg (Builder.new name ((parent.map fun n => n.child name.ns).getD [])) = .ok (b, .ok ()) →
      ∃ m, b.ns.finalize = .ok m ∧ InForce name ((parent.map Namespaces.byPrefix).getD []) (itemCalls env x) m.byPrefix := by
    intro b l hl he hr
    obtain ⟨rs, hc⟩ := hl _ _ hr
    obtain ⟨m, reqs, asg, h1, h2, h3, h4, h5, h6⟩ := C48_prefixes dbg name parent hp l b rs hc
    rw [he]
    exact ⟨m, h1, reqs, asg, h2, h3, h4, h5, h6⟩
  have plain : attrsOf env x = .ret (.ok ()) → itemCalls env x = [] → urls (valueNs env x) = [] → itemChildren env x = [] →
      ∃ b m r', (attrsOf env x).run dbg (Builder.new name ((parent.map fun n => n.child name.ns).getD [])) = .ok (b, .ok ()) ∧
      BuilderIs name i r' true b ∧ b.ns.finalize = .ok m ∧ InForce name ((parent.map Namespaces.byPrefix).getD []) (itemCalls env x) m.byPrefix ∧
      (∀ u ∈ r, u ∈ r') ∧ (∀ u ∈ urls (valueNs env x), u ∈ r') ∧ ItemsOk (itemChildren env x) r' := by
    intro h1 h2 h3 h4
    obtain ⟨m, hm, hf⟩ := calls (Builder.new name ((parent.map fun n => n.child name.ns).getD [])) [] (by
      intro b b' h
      rw [h1] at h
      cases h
      exact ⟨[], rfl⟩) h2 (by rw [h1]; rfl)
    exact ⟨_, m, r, by rw [h1]; rfl, hb, hm, hf, fun u h => h, by rw [h3]; simp, by rw [h4]; intro it hit; simp at hit⟩
  cases x with
  | none => exact plain rfl rfl rfl rfl
  | some y =>
    obtain ⟨ty, v⟩ := y
    cases ty with
    | text t => exact plain (by cases v <;> rfl) (by cases v <;> rfl) rfl (by cases v <;> rfl)
    | strct s =>
      obtain ⟨vs, rfl⟩ := hx
      obtain ⟨b, res, h1, h2⟩ := AttrProg.run_total dbg _ name i r true
        (fun sc => ∃ r', sc = .builder name i r' true ∧ ∀ u, (u ∈ r ∨ u ∈ urls (env.strct s).namespaces ∨
          ∃ f e, f ∈ (env.strct s).fields ∧ f.kind = .flatten e ∧ u ∈ urls (env.enm e).namespaces) → u ∈ r')
        (declared_struct env henv s vs name i r true _ fun r' hr' => ⟨r', rfl, hr'⟩) _ hb
      obtain ⟨-, -, g3⟩ := AttrProg.run_asks dbg _ _ _ (show (Builder.new name _).Seen from rfl) _ h1
      rw [show (Builder.new name ((parent.map fun n => n.child name.ns).getD [])).attrs = [] from rfl, asks_struct env hd] at g3
      cases res with
      | error e => simp [okSome] at g3
      | ok u =>
        obtain ⟨r1, d1, k1, r', k2, k3⟩ := h2 rfl
        cases k2
        obtain ⟨m, hm, hf⟩ := calls b _ (calls_struct dbg env s vs) rfl h1
        exact ⟨b, m, r1, h1, k1, hm, hf, fun u hu => k3 u (.inl hu), fun u hu => k3 u (.inr (.inl hu)),
          structItems_ok henv fun u hu => k3 u (.inr hu)⟩
    | enm e =>
      have heq : writeAttributes env (.enm e) v = writeNamespaces (env.enm e).namespaces := by unfold writeAttributes; rfl
      obtain ⟨b, res, h1, h2⟩ := AttrProg.run_total dbg (writeNamespaces (env.enm e).namespaces) name i r true
        (fun sc => ∃ r', sc = .builder name i r' true ∧ ∀ u, u ∈ r ∨ u ∈ urls (env.enm e).namespaces → u ∈ r')
        (declared_namespaces _ (henv.mappings (.enm e)) name i r true _ fun r' hr' => ⟨r', rfl, hr'⟩) _ hb
      obtain ⟨-, -, g3⟩ := AttrProg.run_asks dbg _ _ _ (show (Builder.new name _).Seen from rfl) _ h1
      rw [asks_namespaces] at g3
      cases res with
      | error e => simp [okSome] at g3
      | ok u =>
        obtain ⟨r1, d1, k1, r', k2, k3⟩ := h2 rfl
        cases k2
        rw [← heq] at h1
        obtain ⟨m, hm, hf⟩ := calls b _ (calls_enum dbg env e v) rfl h1
        exact ⟨b, m, r1, h1, k1, hm, hf, fun u hu => k3 u (.inl hu), fun u hu => k3 u (.inr hu),
          variantItems_ok henv fun u hu => k3 u (.inr hu)⟩

/-! ### Running one element -/

/-- What happens after the children of an element. -/
def after {o : Bool} {hs : List Handle} (k : WCont o hs) : WCont true (.writer o :: hs) := fun r =>
  match r with
  | .error e => .dropWriter (k (.error e))
  | .ok () => .finish k

theorem elem_run (dbg : Bool) (sink : Sink) {o : Bool} {hs : List Handle} (name : EName) (attrs : AttrProg)
    (c : WCont true (.writer o :: hs) → Prog (.writer true :: .writer o :: hs)) (k : WCont o hs) (n : Namespaces) (rest : HStates hs) (s : WState)
    (b : Builder) (h : attrs.run dbg (Builder.new name (n.child name.ns)) = .ok (b, .ok ())) :
    (writeElem name attrs c k).run dbg sink (.cons (h := .writer o) n rest) s =
      match b.start sink s with
      | .error f => .error f
      | .ok (s, .ok m) => (c (after k)).run dbg sink (.cons (h := .writer true) m (.cons (h := .writer o) n rest)) s
      | .ok (s, .error e) => (k (.error e)).run dbg sink (.cons (h := .writer o) n rest) s := by
  unfold writeElem
  have : ∀ p : Prog (.builder :: .writer o :: hs), Prog.run dbg sink (.element name p) (.cons (h := .writer o) n rest) s =
    p.run dbg sink (.cons (h := .builder) (Builder.new name (n.child name.ns)) (.cons (h := .writer o) n rest)) s := fun p => rfl
  rw [this, Open.embed_run, h]
  simp only
  rw [Open.run_start]
  rfl

theorem shows_head {env : Env} {n : EName} {x : Option (Ty × Val)} {l : List Item} {f : EForest} (h : Shows env ({ name := n, value := x } :: l) f) :
    ValueOk x ∧ (∃ g, Shows env (itemChildren env x) g) ∧ (∃ f', Shows env l f') ∧
      ((∃ t tv s, x = some (.text t, .text tv) ∧ t.toText tv = some s) ∨
        ∀ {o : Bool} {hs : List Handle} (k : WCont o hs), childrenOf env x k = runItems env (itemChildren env x) k) := by
  cases h with
  | unit rest => exact ⟨trivial, ⟨.nil, .nil⟩, ⟨_, rest⟩, .inr fun k => rfl⟩
  | text ht rest => exact ⟨trivial, ⟨.nil, .nil⟩, ⟨_, rest⟩, .inl ⟨_, _, _, rfl, ht⟩⟩
  | strct children rest => exact ⟨⟨_, rfl⟩, ⟨_, children⟩, ⟨_, rest⟩, .inr fun k => writeStruct_items env _ _ k⟩
  | enm children rest => exact ⟨trivial, ⟨_, children⟩, ⟨_, rest⟩, .inr fun k => writeVariant_items env _ _ k⟩

/-! ### No panic -/

/-- No panic. -/
def Returns (x : Except Fault (WState × Except SErr Unit)) : Prop := ∃ s r, x = .ok (s, r)

theorem noPlain_cons {env : Env} {scope m : List (String × String)} {n : EName} {x : Option (Ty × Val)} {l : List Item}
    (hm : InForce n scope (itemCalls env x) m) (h : NoPlainDefault env scope ({ name := n, value := x } :: l)) :
    (n.ns = "" → ∀ u, ("", u) ∉ m) ∧ NoPlainDefault env m (itemChildren env x) ∧ NoPlainDefault env scope l := by
  cases h with
  | cons h1 h2 h3 h4 =>
    have := inForce_unique h1 hm
    subst this
    exact ⟨h2, h3, h4⟩

theorem parent_of {sc : List String} {n : Namespaces} (h : WriterIs sc true n) : ∀ m, some n = some m → m.Ok := by
  rintro m ⟨⟩
  exact h.good.ok

theorem start_returns (dbg : Bool) (sink : Sink) {b : Builder} {name : EName} {m : Namespaces} {q : WName} {as : List (WName × String)} {s : WState}
    (h : b.start sink s =
      match s.write sink (.start q as m.byPrefix) (some (name, b.attrs)) with
      | (s, .error e) => .ok (s, .error e)
      | (s, .ok ()) => .ok (s, .ok m)) :
    (∃ s' e, b.start sink s = .ok (s', .error e)) ∨ ∃ s', b.start sink s = .ok (s', .ok m) := by
  rw [h]
  split
  · exact .inl ⟨_, _, rfl⟩
  · exact .inr ⟨_, rfl⟩

theorem items_return (dbg : Bool) (sink : Sink) {env : Env} (henv : NamesDeclared env) (hd : AttrsDistinct env) {l : List Item} :
    ∀ {f : EForest}, Shows env l f → ∀ {scope : List (String × String)}, NoPlainDefault env scope l →
    ∀ {o : Bool} {hs : List Handle} (k : WCont o hs) (sc : List String) (n : Namespaces) (rest : HStates hs) (s : WState), WriterIs sc true n →
      n.byPrefix = scope → ItemsOk l sc → (∀ r s, Returns ((k r).run dbg sink (.cons (h := .writer o) n rest) s)) →
      Returns ((runItems env l k).run dbg sink (.cons (h := .writer o) n rest) s) := by
  intro f hf scope h
  induction h generalizing f with
  | nil =>
    intro o hs k sc n rest s hw hsc hl hk
    exact hk _ s
  | @cons scope m name x l hm plain children rest' ihc ih =>
    intro o hs k sc n rest s hw hsc hl hk
    subst hsc
    obtain ⟨hx, ⟨g, hg⟩, ⟨f', hf'⟩, hch⟩ := shows_head hf
    obtain ⟨b, m', r', h1, h2, h3, h4, h5, h6, h7⟩ := tag dbg henv hd name x hx (some n) (parent_of hw) _ _ (hw.child name)
    have hmm := inForce_unique h4 hm
    subst hmm
    have hname : ElemNsOk r' name := by
      rcases hl _ List.mem_cons_self with h | h | h
      · exact .inl h
      · exact .inr (.inl (h5 _ (by simp only at h; simp [h])))
      · exact .inr (.inr h)
    obtain ⟨hw', -, hstart⟩ := builder_start h2 hname h3 sink s
    obtain ⟨q, as, hst⟩ := hstart fun hc => by
      obtain ⟨h, u, hu⟩ := hc
      exact plain h u hu
    have hk' : ∀ r s, Returns ((k.next (runItems env l k) r).run dbg sink (.cons (h := .writer o) n rest) s) := by
      intro r s
      cases r with
      | error e => exact hk _ s
      | ok u => exact ih hf' k sc n rest s hw rfl (fun it hit => hl it (List.mem_cons_of_mem _ hit)) hk
    rw [runItems, runItem_eq, elem_run dbg sink name _ _ _ n rest s b h1]
    rcases start_returns dbg sink hst with ⟨s', e, hs'⟩ | ⟨s', hs'⟩
    · rw [hs']; exact hk' _ s'
    · rw [hs']
      simp only
      have hafter : ∀ r s, Returns ((after (k.next (runItems env l k)) r).run dbg sink
          (.cons (h := .writer true) m' (.cons (h := .writer o) n rest)) s) := by
        intro r s
        cases r with
        | error e => exact hk' _ _
        | ok u => exact hk' _ _
      rcases hch with ⟨t, tv, str, rfl, ht⟩ | hch
      · simp only [childrenOf]
        rw [writeChildren.eq_def]
        simp only [ht]
        exact hafter _ _
      · rw [hch]
        exact ihc hg _ r' m' _ s' hw' rfl h7 hafter

/-! ### A run that does not panic, if every write succeeds -/

theorem write_accepts {sink : Sink} (hsink : ∀ out e, sink out e = none) {s : WState} (hp : s.poison = none) (e : WEvent)
    (a : Option (EName × List (EName × String))) :
    ∃ s', s.write sink e a = (s', .ok ()) ∧ s'.poison = none ∧ s'.steps = s.steps ++ [.wrote e a] := by
  unfold WState.write
  rw [hp, hsink]
  exact ⟨_, rfl, rfl, rfl⟩

theorem noWithin_cons {env : Env} {dflt : Bool} {scope m : List (String × String)} {n : EName} {x : Option (Ty × Val)} {l : List Item}
    (hm : InForce n scope (itemCalls env x) m) : NoPlainWithin env dflt scope ({ name := n, value := x } :: l) ↔
    (n.ns = "" → dflt = false ∧ ∀ u, ("", u) ∉ m) ∧ NoPlainWithin env (dflt || m.any fun y => y.1 == "") m (itemChildren env x) ∧
      NoPlainWithin env dflt scope l := by
  constructor
  · intro h
    cases h with
    | cons h1 h2 h3 h4 =>
      have := inForce_unique h1 hm
      subst this
      exact ⟨h2, h3, h4⟩
  · rintro ⟨h1, h2, h3⟩
    exact .cons hm h1 h2 h3

theorem within_default {env : Env} {dflt : Bool} {scope : List (String × String)} {l : List Item} (h : NoPlainWithin env dflt scope l) :
    NoPlainDefault env scope l := by
  induction h with
  | nil => exact .nil
  | cons hm plain _ _ ihc ih => exact .cons hm (fun hn => (plain hn).2) ihc ih

/-- What the steps of a part of the run say: it closes what it opens, and elements in no namespace are where they mean what was asked for, exactly if
`NoPlainWithin`. -/
def StepsSay (env : Env) (scope : List (String × String)) (l : List Item) (xs : List Step) : Prop :=
  ∀ sc dflt, (dflt = false ↔ lookupPrefix sc "" = none) → openScopes (xs.filterMap stepEvent) sc = sc ∧
    (PlainSteps xs sc ↔ NoPlainWithin env dflt scope l)

theorem steps_nil (env : Env) (scope : List (String × String)) : StepsSay env scope [] [] :=
  fun _ _ _ => ⟨rfl, fun _ => .nil, fun _ => trivial⟩

theorem steps_cons {env : Env} {scope m : List (String × String)} {n : EName} {x : Option (Ty × Val)} {l : List Item}
    (hm : InForce n scope (itemCalls env x) m) (hc : n.ns = "" → ∀ u, ("", u) ∉ m) {xs ys : List Step} (hx : StepsSay env m (itemChildren env x) xs)
    (hy : StepsSay env scope l ys) (q : WName) (as : List (WName × String)) (attrs : List (EName × String)) :
    StepsSay env scope ({ name := n, value := x } :: l)
      (.wrote (.start q as m) (some (n, attrs)) :: (xs ++ .wrote .stop none :: ys)) := by
  intro sc dflt hd
  have hd' : (dflt || m.any fun y => y.1 == "") = false ↔ lookupPrefix (m :: sc) "" = none := by
    unfold lookupPrefix at hd ⊢
    rw [List.findSome?_cons, Bool.or_eq_false_iff, hd]
    cases hg : SMap.get m "" with
    | none =>
      have : (m.any fun y => y.1 == "") = false := by
        rw [SMap.get_none] at hg
        rw [List.any_eq_false]
        intro y hy
        simp only [beq_iff_eq]
        rintro rfl'
        exact hg (by rw [← rfl']; exact List.mem_map_of_mem (f := Prod.fst) hy)
      simp [this]
    | some u =>
      have : (m.any fun y => y.1 == "") = true := List.any_eq_true.mpr ⟨_, SMap.get_mem hg, by simp⟩
      simp [this]
  obtain ⟨h1, h2⟩ := hx (m :: sc) _ hd'
  obtain ⟨h3, h4⟩ := hy sc dflt hd
  have hev : (xs ++ Step.wrote .stop none :: ys).filterMap stepEvent = xs.filterMap stepEvent ++ WEvent.stop :: ys.filterMap stepEvent := by
    simp [stepEvent]
  refine ⟨?_, ?_⟩
  · simp only [List.filterMap_cons, stepEvent, hev, openScopes, openScopes_append, h1, List.tail_cons, h3]
  · rw [noWithin_cons hm, ← h2, ← h4]
    simp only [PlainSteps, plainSteps_append, h1, List.tail_cons, Option.some.injEq, Prod.mk.injEq]
    constructor
    · rintro ⟨k1, k2, k3⟩
      exact ⟨fun hn => ⟨hd.mpr (k1 n attrs ⟨rfl, rfl⟩ hn), hc hn⟩, k2, k3⟩
    · rintro ⟨k1, k2, k3⟩
      refine ⟨?_, k2, k3⟩
      rintro n' l' ⟨rfl, rfl⟩ hn
      exact hd.mp (k1 hn).1

theorem items_accepted (dbg : Bool) (sink : Sink) (hsink : ∀ out e, sink out e = none) {env : Env} (henv : NamesDeclared env) (hd : AttrsDistinct env)
    {l : List Item} {f : EForest} (hf : Shows env l f) :
    ∀ {o : Bool} {hs : List Handle} (k : WCont o hs) (sc : List String) (n : Namespaces) (rest : HStates hs) (s : WState)
      (x : WState × Except SErr Unit), WriterIs sc true n → ItemsOk l sc → s.poison = none →
      (runItems env l k).run dbg sink (.cons (h := .writer o) n rest) s = .ok x →
      NoPlainDefault env n.byPrefix l ∧ ∃ s' xs, s'.poison = none ∧ s'.steps = s.steps ++ xs ∧ StepsSay env n.byPrefix l xs ∧
        (k (.ok ())).run dbg sink (.cons (h := .writer o) n rest) s' = .ok x := by
  have elem : ∀ (name : EName) (x : Option (Ty × Val)) (l : List Item), ValueOk x →
      ((∃ t tv s, x = some (.text t, .text tv) ∧ t.toText tv = some s) ∨
        ∀ {o : Bool} {hs : List Handle} (k : WCont o hs), childrenOf env x k = runItems env (itemChildren env x) k) →
      (∀ {o : Bool} {hs : List Handle} (k : WCont o hs) (sc : List String) (n : Namespaces) (rest : HStates hs) (s : WState)
        (y : WState × Except SErr Unit), WriterIs sc true n → ItemsOk (itemChildren env x) sc → s.poison = none →
        (runItems env (itemChildren env x) k).run dbg sink (.cons (h := .writer o) n rest) s = .ok y →
        NoPlainDefault env n.byPrefix (itemChildren env x) ∧ ∃ s' xs, s'.poison = none ∧ s'.steps = s.steps ++ xs ∧
          StepsSay env n.byPrefix (itemChildren env x) xs ∧ (k (.ok ())).run dbg sink (.cons (h := .writer o) n rest) s' = .ok y) →
      (∀ {o : Bool} {hs : List Handle} (k : WCont o hs) (sc : List String) (n : Namespaces) (rest : HStates hs) (s : WState)
        (y : WState × Except SErr Unit), WriterIs sc true n → ItemsOk l sc → s.poison = none →
        (runItems env l k).run dbg sink (.cons (h := .writer o) n rest) s = .ok y →
        NoPlainDefault env n.byPrefix l ∧ ∃ s' xs, s'.poison = none ∧ s'.steps = s.steps ++ xs ∧ StepsSay env n.byPrefix l xs ∧
          (k (.ok ())).run dbg sink (.cons (h := .writer o) n rest) s' = .ok y) →
      ∀ {o : Bool} {hs : List Handle} (k : WCont o hs) (sc : List String) (n : Namespaces) (rest : HStates hs) (s : WState)
        (y : WState × Except SErr Unit), WriterIs sc true n → ItemsOk ({ name, value := x } :: l) sc → s.poison = none →
        (runItems env ({ name, value := x } :: l) k).run dbg sink (.cons (h := .writer o) n rest) s = .ok y →
        NoPlainDefault env n.byPrefix ({ name, value := x } :: l) ∧ ∃ s' xs, s'.poison = none ∧ s'.steps = s.steps ++ xs ∧
          StepsSay env n.byPrefix ({ name, value := x } :: l) xs ∧ (k (.ok ())).run dbg sink (.cons (h := .writer o) n rest) s' = .ok y := by
    intro name x l hx hch ihc ih o hs k sc n rest s y hw hl hpo hrun
    obtain ⟨b, m, r', h1, h2, h3, h4, h5, h6, h7⟩ := tag dbg henv hd name x hx (some n) (parent_of hw) _ _ (hw.child name)
    have hname : ElemNsOk r' name := by
      rcases hl _ List.mem_cons_self with h | h | h
      · exact .inl h
      · exact .inr (.inl (h5 _ (by simp only at h; simp [h])))
      · exact .inr (.inr h)
    obtain ⟨hw', hpanic, hstart⟩ := builder_start h2 hname h3 sink s
    rw [runItems, runItem_eq, elem_run dbg sink name _ _ _ n rest s b h1] at hrun
    have hc : ¬ Clash name m := by
      intro hc
      rw [hpanic hc] at hrun
      cases hrun
    have plain : name.ns = "" → ∀ u, ("", u) ∉ m.byPrefix := fun hn u hu => hc ⟨hn, u, hu⟩
    obtain ⟨q, as, hst⟩ := hstart hc
    obtain ⟨s1, w1, w2, w3⟩ := write_accepts hsink hpo (.start q as m.byPrefix) (some (name, b.attrs))
    rw [w1] at hst
    rw [hst] at hrun
    simp only at hrun
    -- the children
    have hkids : NoPlainDefault env m.byPrefix (itemChildren env x) ∧ ∃ s2 xs, s2.poison = none ∧ s2.steps = s1.steps ++ xs ∧
        StepsSay env m.byPrefix (itemChildren env x) xs ∧
        (Prog.finish (k.next (runItems env l k))).run dbg sink (.cons (h := .writer true) m (.cons (h := .writer o) n rest)) s2 = .ok y := by
      rcases hch with ⟨t, tv, str, rfl, ht⟩ | hch
      · simp only [childrenOf] at hrun
        rw [writeChildren.eq_def] at hrun
        simp only [ht] at hrun
        obtain ⟨s2, v1, v2, v3⟩ := write_accepts hsink w2 (.chars str) none
        rw [show ∀ (k : WCont true (.writer o :: hs)) st s, (Prog.text str k).run dbg sink st s =
          match s.write sink (.chars str) none with
          | (s, r) => (k r).run dbg sink st s from fun _ _ _ => by rw [Prog.run], v1] at hrun
        refine ⟨.nil, s2, _, v2, v3, ?_, hrun⟩
        intro sc dflt hdf
        exact ⟨rfl, fun _ => .nil, fun _ => trivial⟩
      · rw [hch] at hrun
        exact ihc _ r' m _ s1 y hw' h7 w2 hrun
    obtain ⟨hnp, s2, xs, p2, p3, p4, p5⟩ := hkids
    obtain ⟨s3, v1, v2, v3⟩ := write_accepts hsink p2 .stop none
    have hfin : (runItems env l k).run dbg sink (.cons (h := .writer o) n rest) s3 = .ok y := by
      have : (Prog.finish (k.next (runItems env l k))).run dbg sink (.cons (h := .writer true) m (.cons (h := .writer o) n rest)) s2 =
        match s2.write sink .stop none with
        | (s, r) => (k.next (runItems env l k) r).run dbg sink (.cons (h := .writer o) n rest) s := rfl
      rw [this, v1] at p5
      exact p5
    obtain ⟨hnp', s4, ys, r1, r2, r3, r4⟩ := ih k sc n rest s3 y hw (fun it hit => hl it (List.mem_cons_of_mem _ hit)) v2 hfin
    refine ⟨.cons h4 plain hnp hnp', s4, _, r1, ?_, steps_cons h4 plain p4 r3 q as b.attrs, r4⟩
    rw [r2, v3, p3, w3]
    simp
  induction hf with
  | nil =>
    intro o hs k sc n rest s x hw hl hp hrun
    exact ⟨.nil, s, [], hp, by simp, steps_nil env _, hrun⟩
  | @unit name l f rest ih =>
    have h := shows_head (Shows.unit (n := name) rest)
    exact fun {o hs} k sc n rest s x => elem name none l h.1 h.2.2.2 (fun k sc n rest s y _ _ hp hrun => ⟨.nil, s, [], hp, by simp, steps_nil env _, hrun⟩)
      (fun k => ih k) k sc n rest s x
  | @text name t tv str l f ht rest ih =>
    have h := shows_head (Shows.text (n := name) ht rest)
    exact fun {o hs} k sc n rest s x => elem name _ l h.1 h.2.2.2 (fun k sc n rest s y _ _ hp hrun => ⟨.nil, s, [], hp, by simp, steps_nil env _, hrun⟩)
      (fun k => ih k) k sc n rest s x
  | @strct name i vs g l f children rest ihc ih =>
    have h := shows_head (Shows.strct (n := name) children rest)
    exact fun {o hs} k sc n rest s x => elem name _ l h.1 h.2.2.2 (fun k => ihc k) (fun k => ih k) k sc n rest s x
  | @enm name i j p g l f children rest ihc ih =>
    have h := shows_head (Shows.enm (n := name) children rest)
    exact fun {o hs} k sc n rest s x => elem name _ l h.1 h.2.2.2 (fun k => ihc k) (fun k => ih k) k sc n rest s x

/-! ### Whole documents -/

theorem root_builder (name : EName) : BuilderIs name [] [] true (Builder.new name []) :=
  ⟨root_good name, rfl, by simp, by simp, rfl, by intro a ha; simp [Builder.new] at ha⟩

theorem document_returns (dbg : Bool) (sink : Sink) {env : Env} (henv : NamesDeclared env) (hd : AttrsDistinct env) {name : EName} {ty : Ty} {v : Val}
    (hn : ElemNsOk (urls (declaredNs env ty)) name) {f : EForest} (hf : Shows env [{ name, value := some (ty, v) }] f)
    (h : NoPlainDefault env [] [{ name, value := some (ty, v) }]) : Returns (serializeVal dbg sink env name ty v) := by
  obtain ⟨hx, ⟨g, hg⟩, -, hch⟩ := shows_head hf
  obtain ⟨b, m, r', h1, h2, h3, h4, h5, h6, h7⟩ := tag dbg henv hd name _ hx none (by simp) _ _ (root_builder name)
  cases h with
  | @cons _ m' _ _ _ hm plain children _ =>
    have hmm := inForce_unique hm h4
    subst hmm
    have hname : ElemNsOk r' name := hn.imp id (Or.imp (h6 _) id)
    obtain ⟨hw', -, hstart⟩ := builder_start h2 hname h3 sink { out := [], poison := none, steps := [] }
    obtain ⟨q, as, hst⟩ := hstart fun hc => by
      obtain ⟨h, u, hu⟩ := hc
      exact plain h u hu
    unfold serializeVal serializeTo
    rw [show writeAttributes env ty v = attrsOf env (some (ty, v)) from rfl]
    simp only [Option.map_none, Option.getD_none] at h1
    simp only [h1]
    rcases start_returns dbg sink hst with ⟨s', e, hs'⟩ | ⟨s', hs'⟩
    · rw [hs']; exact ⟨_, _, rfl⟩
    · rw [hs']
      have hkids : Returns ((writeChildren env ty v .ret).run dbg sink (.cons (h := .writer false) m .nil) s') := by
        rcases hch with ⟨t, tv, str, hxe, ht⟩ | hch
        · cases hxe
          rw [writeChildren.eq_def]
          simp only [ht]
          exact ⟨_, _, rfl⟩
        · rw [show writeChildren env ty v = childrenOf env (some (ty, v)) from rfl, hch]
          exact items_return dbg sink henv hd hg children _ r' m _ s' hw' rfl h7 fun r s => ⟨_, _, rfl⟩
      obtain ⟨s2, r, hs2⟩ := hkids
      simp only [hs2]
      cases r with
      | error e => exact ⟨_, _, rfl⟩
      | ok u => exact ⟨_, _, rfl⟩

theorem document_accepted (dbg : Bool) (sink : Sink) (hsink : ∀ out e, sink out e = none) {env : Env} (henv : NamesDeclared env) (hd : AttrsDistinct env)
    {name : EName} {ty : Ty} {v : Val} (hn : ElemNsOk (urls (declaredNs env ty)) name) {f : EForest}
    (hf : Shows env [{ name, value := some (ty, v) }] f) {s : WState} {r : Except SErr Unit} (h : serializeVal dbg sink env name ty v = .ok (s, r)) :
    NoPlainDefault env [] [{ name, value := some (ty, v) }] ∧
      (PlainSteps s.steps [] ↔ NoPlainWithin env false [] [{ name, value := some (ty, v) }]) := by
  obtain ⟨hx, ⟨g, hg⟩, -, hch⟩ := shows_head hf
  obtain ⟨b, m, r', h1, h2, h3, h4, h5, h6, h7⟩ := tag dbg henv hd name _ hx none (by simp) _ _ (root_builder name)
  have hname : ElemNsOk r' name := hn.imp id (Or.imp (h6 _) id)
  obtain ⟨hw', hpanic, hstart⟩ := builder_start h2 hname h3 sink { out := [], poison := none, steps := [] }
  unfold serializeVal serializeTo at h
  rw [show writeAttributes env ty v = attrsOf env (some (ty, v)) from rfl] at h
  simp only [Option.map_none, Option.getD_none] at h1 h4
  simp only [h1] at h
  have hc : ¬ Clash name m := by
    intro hc
    rw [hpanic hc] at h
    cases h
  have plain : name.ns = "" → ∀ u, ("", u) ∉ m.byPrefix := fun hn u hu => hc ⟨hn, u, hu⟩
  obtain ⟨q, as, hst⟩ := hstart hc
  obtain ⟨s1, w1, w2, w3⟩ := write_accepts hsink (s := { out := [], poison := none, steps := [] }) rfl (.start q as m.byPrefix) (some (name, b.attrs))
  rw [w1] at hst
  rw [hst] at h
  simp only at h
  cases hc : (writeChildren env ty v .ret).run dbg sink (.cons (h := .writer false) m .nil) s1 with
  | error e => rw [hc] at h; cases h
  | ok y =>
    have hkids : NoPlainDefault env m.byPrefix (itemChildren env (some (ty, v))) ∧ ∃ s2 xs, s2.poison = none ∧ s2.steps = s1.steps ++ xs ∧
        StepsSay env m.byPrefix (itemChildren env (some (ty, v))) xs ∧ y = (s2, .ok ()) := by
      rcases hch with ⟨t, tv, str, hxe, ht⟩ | hch
      · cases hxe
        rw [writeChildren.eq_def] at hc
        simp only [ht] at hc
        obtain ⟨s2, v1, v2, v3⟩ := write_accepts hsink w2 (.chars str) none
        have : (Prog.text (o := false) (hs := []) str .ret).run dbg sink (.cons (h := .writer false) m .nil) s1 =
          match s1.write sink (.chars str) none with
          | (s, r) => .ok (s, r) := rfl
        rw [this, v1] at hc
        exact ⟨.nil, s2, _, v2, v3, fun sc dflt _ => ⟨rfl, fun _ => .nil, fun _ => trivial⟩, (Except.ok.inj hc).symm⟩
      · rw [show writeChildren env ty v = childrenOf env (some (ty, v)) from rfl, hch] at hc
        obtain ⟨k1, s2, xs, k2, k3, k4, k5⟩ := items_accepted dbg sink hsink henv hd hg .ret r' m .nil s1 y hw' h7 w2 hc
        exact ⟨k1, s2, xs, k2, k3, k4, (Except.ok.inj k5).symm⟩
    obtain ⟨hnp, s2, xs, p2, p3, p4, rfl⟩ := hkids
    rw [hc] at h
    simp only at h
    obtain ⟨s3, v1, v2, v3⟩ := write_accepts hsink p2 .stop none
    rw [v1] at h
    cases h
    refine ⟨.cons h4 plain hnp .nil, ?_⟩
    have hsteps : s.steps = .wrote (.start q as m.byPrefix) (some (name, b.attrs)) :: (xs ++ .wrote .stop none :: []) := by
      rw [v3, p3, w3]
      simp
    rw [hsteps]
    exact (steps_cons h4 plain p4 (steps_nil env []) q as b.attrs [] false (by simp [lookupPrefix])).2

end SX.Scoped
