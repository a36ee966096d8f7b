import Verif.Spec.OpenSer
import Verif.Spec.Macro
import Verif.Proof.DeriveSer

/-
Lemmas about derived serializers with fields of arbitrary types.
-/
namespace SX.Open
open SX.Spec SX.Spec.Open

/-! ## Running what was lent to -/

/-- The states of all handles, from those of the callee and those of the caller. -/
def lentState {o : Bool} {hs : List Handle} (rest : HStates hs) : {l m : List Handle} → Lent o hs l m → HStates l → HStates m
  | _, _, .base, .cons n _ => .cons (h := .writer o) n rest
  | _, _, .up _ b, .cons s st => .cons s (lentState rest b st)

/-- The state of the writer that was lent. -/
def bottom {o : Bool} {hs : List Handle} : {l m : List Handle} → Lent o hs l m → HStates l → Namespaces
  | _, _, .base, .cons n _ => n
  | _, _, .up _ b, .cons _ st => bottom b st

/-- The result of the callee is handed to the caller. -/
def afterCall (dbg : Bool) (sink : Sink) {o : Bool} {hs : List Handle} (k : WCont o hs) (rest : HStates hs) (n : Namespaces) :
    Except Fault (WState × Except SErr Unit) → Except Fault (WState × Except SErr Unit)
  | .error f => .error f
  | .ok (s, r) => (k r).run dbg sink (.cons (h := .writer o) n rest) s

theorem lend_element {o o1 : Bool} {hs l1 m : List Handle} (k : WCont o hs) (name : EName) (p : Prog (.builder :: .writer o1 :: l1)) (o2 : Bool)
    (b : Lent o hs (.writer o1 :: l1) (.writer o2 :: m)) :
    lend k (.element name p) b = .element name (lend k p (.up _ b)) := by
  cases b with
  | base => rw [lend]
  | up _ b => rw [lend]

theorem lend_text {o o1 : Bool} {hs l1 m : List Handle} (k : WCont o hs) (t : String) (p : Except SErr Unit → Prog (.writer o1 :: l1)) (o2 : Bool)
    (b : Lent o hs (.writer o1 :: l1) (.writer o2 :: m)) :
    lend k (.text t p) b = .text t fun r => lend k (p r) b := by
  cases b with
  | base => rw [lend]
  | up _ b => rw [lend]

theorem lend_run (dbg : Bool) (sink : Sink) {o : Bool} {hs : List Handle} (k : WCont o hs) (rest : HStates hs) {l : List Handle} (p : Prog l) :
    ∀ {m : List Handle} (b : Lent o hs l m) (st : HStates l) (s : WState),
      (lend k p b).run dbg sink (lentState rest b st) s = afterCall dbg sink k rest (bottom b st) (p.run dbg sink st s) := by
  induction p with
  | ret r =>
    intro m b st s
    cases b with
    | base => cases st with | cons n st => rfl
    | up h b => exact nomatch b
  | element name p ih =>
    intro m b st s
    cases b with
    | base =>
      cases st with | cons n st =>
      rw [lend_element]
      exact ih (.up _ .base) (.cons (h := .builder) (Builder.new name (Namespaces.child n name.ns)) (.cons n st)) s
    | up h b =>
      cases st with | cons n st =>
      rw [lend_element]
      exact ih (.up _ (.up _ b)) (.cons (h := .builder) (Builder.new name (Namespaces.child n name.ns)) (.cons n st)) s
  | text t p ih =>
    intro m b st s
    cases b with
    | base =>
      cases st with | cons n st =>
      exact ih (s.write sink (.chars t) none).2 .base (.cons n st) (s.write sink (.chars t) none).1
    | up h b =>
      rw [lend_text]
      exact ih (s.write sink (.chars t) none).2 (.up _ b) st (s.write sink (.chars t) none).1
  | «namespace» q u p ih =>
    intro m b st s
    cases b with
    | up h b =>
      cases st with | cons n st =>
      show Prog.run dbg sink (.namespace q u (lend k p (.up _ b))) (.cons n (lentState rest b st)) s = _
      unfold Prog.run
      cases hn : Builder.namespace dbg n q u with
      | error f => simp only [hn]; rfl
      | ok b' => simp only [hn]; exact ih (.up _ b) (.cons (h := .builder) b' st) s
  | «attribute» n v p ih =>
    intro m b st s
    cases b with
    | up h b =>
      cases st with | cons bd st =>
      show Prog.run dbg sink (.attribute n v fun r => lend k (p r) (.up _ b)) (.cons bd (lentState rest b st)) s = _
      unfold Prog.run
      cases hn : Builder.attribute bd n v with
      | error f => simp only [hn]; rfl
      | ok x => obtain ⟨b', r⟩ := x; simp only [hn]; exact ih r (.up _ b) (.cons (h := .builder) b' st) s
  | start ok fail ih1 ih2 =>
    intro m b st s
    cases b with
    | up h b =>
      cases st with | cons bd st =>
      show Prog.run dbg sink (.start (lend k ok (.up _ b)) fun e => lend k (fail e) b) (.cons bd (lentState rest b st)) s = _
      unfold Prog.run
      cases hn : Builder.start sink bd s with
      | error f => simp only [hn]; rfl
      | ok x =>
        obtain ⟨s', r⟩ := x
        cases r with
        | ok n => simp only [hn]; exact ih1 (.up _ b) (.cons (h := .writer true) n st) s'
        | error e => simp only [hn]; exact ih2 e b st s'
  | finish p ih =>
    intro m b st s
    cases b with
    | up h b => cases st with | cons n st => exact ih (s.write sink .stop none).2 b st (s.write sink .stop none).1
  | dropBuilder p ih =>
    intro m b st s
    cases b with
    | up h b => cases st with | cons n st => exact ih b st _
  | dropWriter p ih =>
    intro m b st s
    cases b with
    | up h b => cases st with | cons n st => exact ih b st _
  | forgetBuilder p ih =>
    intro m b st s
    cases b with
    | up h b => cases st with | cons n st => exact ih b st _
  | forgetWriter p ih =>
    intro m b st s
    cases b with
    | up h b => cases st with | cons n st => exact ih b st _

theorem andThen_run (dbg : Bool) (sink : Sink) (n : Namespaces) (p q : Prog [.writer false]) (s : WState) :
    doing dbg sink n (andThen p q) s = inTurn [doing dbg sink n p, doing dbg sink n q] s := by
  have h := lend_run dbg sink (o := false) (hs := []) (fun r => match r with | .error e => .ret (.error e) | .ok () => q) .nil p .base
    (.cons (h := .writer false) n .nil) s
  refine h.trans ?_
  unfold inTurn
  rw [show doing dbg sink n p s = p.run dbg sink (.cons (h := .writer false) n .nil) s from rfl]
  cases p.run dbg sink (.cons (h := .writer false) n .nil) s with
  | error f => rfl
  | ok x =>
    obtain ⟨s', r⟩ := x
    cases r with
    | error e => rfl
    | ok u =>
      show doing dbg sink n q s' = inTurn [doing dbg sink n q] s'
      unfold inTurn
      cases doing dbg sink n q s' with
      | error f => rfl
      | ok x =>
        obtain ⟨s2, r⟩ := x
        cases r <;> rfl

theorem inTurn_pair {S : Type} (a : S → Except Fault (S × Except SErr Unit)) (l : List (S → Except Fault (S × Except SErr Unit))) (s : S) :
    inTurn [a, inTurn l] s = inTurn (a :: l) s := by
  simp only [inTurn]
  cases a s with
  | error f => rfl
  | ok x =>
    obtain ⟨s', r⟩ := x
    cases r with
    | error e => rfl
    | ok u =>
      simp only
      cases inTurn l s' with
      | error f => rfl
      | ok x =>
        obtain ⟨s2, r⟩ := x
        cases r <;> rfl

theorem inTurn_append {S : Type} (a b : List (S → Except Fault (S × Except SErr Unit))) (s : S) :
    inTurn (a ++ b) s = inTurn [inTurn a, inTurn b] s := by
  induction a generalizing s with
  | nil =>
    simp only [List.nil_append, inTurn]
    cases inTurn b s with
    | error f => rfl
    | ok x =>
      obtain ⟨s2, r⟩ := x
      cases r <;> rfl
  | cons x a ih =>
    simp only [List.cons_append, inTurn]
    cases x s with
    | error f => rfl
    | ok y =>
      obtain ⟨s', r⟩ := y
      cases r with
      | error e => rfl
      | ok u =>
        simp only
        rw [ih]
        rfl

theorem elemFields_run (dbg : Bool) (sink : Sink) (n : Namespaces) (fields : List SField) (q : Prog [.writer false]) (s : WState) :
    doing dbg sink n (elemFields fields q) s = inTurn ((elementsOf fields).map (doing dbg sink n) ++ [doing dbg sink n q]) s := by
  induction fields generalizing s with
  | nil =>
    simp only [elemFields, elementsOf, List.filterMap_nil, List.map_nil, List.nil_append, inTurn]
    cases doing dbg sink n q s with
    | error f => rfl
    | ok x => obtain ⟨s2, r⟩ := x; cases r <;> rfl
  | cons f fs ih =>
    obtain ⟨nm, kind⟩ := f
    cases kind with
    | element w =>
      simp only [elemFields, elementsOf, List.filterMap_cons, List.map_cons, List.cons_append]
      rw [andThen_run, funext ih, inTurn_pair]
      rfl
    | _ => exact ih s

theorem flattens_run (dbg : Bool) (sink : Sink) (n : Namespaces) (fields : List SField) (s : WState) :
    doing dbg sink n (flattens fields) s = inTurn ((flattenedOf fields).map fun v => doing dbg sink n v.children) s := by
  induction fields generalizing s with
  | nil => rfl
  | cons f fs ih =>
    obtain ⟨nm, kind⟩ := f
    cases kind with
    | flatten w =>
      simp only [flattens, flattenedOf, List.filterMap_cons, List.map_cons]
      rw [andThen_run, funext ih, inTurn_pair]
      rfl
    | _ => exact ih s

theorem fieldVec_run (dbg : Bool) (sink : Sink) (n : Namespaces) (l : List Ser) (name : EName) (s : WState) :
    doing dbg sink n (fieldVec l name) s = inTurn (l.map fun v => doing dbg sink n (fieldOne v name)) s := by
  induction l generalizing s with
  | nil => rfl
  | cons v l ih =>
    simp only [fieldVec, List.map_cons]
    rw [andThen_run, funext ih, inTurn_pair]

/-! ## Attributes -/

theorem attrThen_run (dbg : Bool) (p q : AttrProg) (b : Builder) :
    (p.andThen q).run dbg b = inTurn [p.run dbg, q.run dbg] b := by
  have tail : ∀ b, q.run dbg b = inTurn [q.run dbg] b := by
    intro b
    simp only [inTurn]
    cases q.run dbg b with
    | error f => rfl
    | ok x => obtain ⟨s2, r⟩ := x; cases r <;> rfl
  induction p generalizing b with
  | ret r =>
    cases r with
    | error e => rfl
    | ok u => exact tail b
  | «namespace» pf u p ih =>
    unfold AttrProg.andThen AttrProg.run
    cases hn : b.namespace dbg pf u with
    | error f => simp only [inTurn, AttrProg.run, hn]
    | ok b' => simp only [inTurn, AttrProg.run, hn]; exact ih b'
  | «attribute» n v p ih =>
    unfold AttrProg.andThen AttrProg.run
    cases hn : b.attribute n v with
    | error f => simp only [inTurn, AttrProg.run, hn]
    | ok x => obtain ⟨b', r⟩ := x; simp only [inTurn, AttrProg.run, hn]; exact ih r b'

theorem writeNamespaces_run (dbg : Bool) (l : List (String × String)) (b : Builder) :
    (writeNamespaces l).run dbg b = inTurn (l.map (declaring dbg)) b := by
  induction l generalizing b with
  | nil => rfl
  | cons m l ih =>
    obtain ⟨p, u⟩ := m
    simp only [writeNamespaces, AttrProg.run, List.map_cons, inTurn, declaring]
    cases b.namespace dbg p u with
    | error f => rfl
    | ok b' => exact ih b'

theorem attrFields_run (dbg : Bool) (fields : List SField) (b : Builder) :
    (attrFields fields).run dbg b = inTurn ((attributesOf fields).map fun p => p.run dbg) b := by
  induction fields generalizing b with
  | nil => rfl
  | cons f fs ih =>
    obtain ⟨nm, kind⟩ := f
    cases kind with
    | «attribute» w =>
      simp only [attrFields, attributesOf, List.filterMap_cons, List.map_cons]
      rw [attrThen_run, funext ih, inTurn_pair]
      rfl
    | _ => exact ih b

theorem flattenAttrs_run (dbg : Bool) (fields : List SField) (b : Builder) :
    (flattenAttrs fields).run dbg b = inTurn ((flattenedOf fields).map fun v => v.attrs.run dbg) b := by
  induction fields generalizing b with
  | nil => rfl
  | cons f fs ih =>
    obtain ⟨nm, kind⟩ := f
    cases kind with
    | flatten w =>
      simp only [flattenAttrs, flattenedOf, List.filterMap_cons, List.map_cons]
      rw [attrThen_run, funext ih, inTurn_pair]
      rfl
    | _ => exact ih b

theorem structSer_attrs_run (dbg : Bool) (ns : List (String × String)) (fields : List SField) (b : Builder) :
    (structSer ns fields).attrs.run dbg b = inTurn (ns.map (declaring dbg) ++ (attributesOf fields).map (fun p => p.run dbg) ++
      (flattenedOf fields).map fun v => v.attrs.run dbg) b := by
  rw [show (structSer ns fields).attrs = (writeNamespaces ns).andThen ((attrFields fields).andThen (flattenAttrs fields)) from rfl, attrThen_run,
    funext (attrThen_run dbg (attrFields fields) (flattenAttrs fields)), funext (writeNamespaces_run dbg ns), funext (attrFields_run dbg fields),
    funext (flattenAttrs_run dbg fields), List.append_assoc, inTurn_append]
  rw [← funext (inTurn_append ((attributesOf fields).map fun p => p.run dbg) ((flattenedOf fields).map fun v => v.attrs.run dbg))]

/-! ## What is written -/

theorem lend_noForget {o : Bool} {hs l : List Handle} (k : WCont o hs) (hk : ∀ r, NoForget (k r)) (p : Prog l) (hp : NoForget p) :
    ∀ {m : List Handle} (b : Lent o hs l m), NoForget (lend k p b) := by
  induction p with
  | ret r =>
    intro m b
    cases b with
    | base => exact hk r
    | up _ b => exact nomatch b
  | element name p ih =>
    intro m b
    cases b with
    | base => exact ih hp _
    | up _ b => rw [lend_element]; exact ih hp _
  | text t p ih =>
    intro m b
    cases b with
    | base => exact fun r => ih r (hp r) _
    | up _ b => rw [lend_text]; exact fun r => ih r (hp r) _
  | «namespace» q u p ih => intro m b; cases b with | up _ b => exact ih hp _
  | «attribute» n v p ih => intro m b; cases b with | up _ b => exact fun r => ih r (hp r) _
  | start ok fail ih1 ih2 => intro m b; cases b with | up _ b => exact ⟨ih1 hp.1 _, fun e => ih2 e (hp.2 e) _⟩
  | finish p ih => intro m b; cases b with | up _ b => exact fun r => ih r (hp r) _
  | dropBuilder p ih => intro m b; cases b with | up _ b => exact ih hp _
  | dropWriter p ih => intro m b; cases b with | up _ b => exact ih hp _
  | forgetBuilder p ih => intro m b; cases b with | up _ b => exact ih hp _
  | forgetWriter p ih => exact hp.elim

theorem andThen_noForget {p q : Prog [.writer false]} (hp : NoForget p) (hq : NoForget q) : NoForget (andThen p q) :=
  lend_noForget _ (fun r => by cases r with | error e => exact trivial | ok u => exact hq) p hp _

theorem embed_noForget {hs : List Handle} (a : AttrProg) (k : Except SErr Unit → Prog (.builder :: hs)) (hk : ∀ r, NoForget (k r)) :
    NoForget (a.embed k) := by
  induction a with
  | ret r => exact hk r
  | «namespace» p u a ih => exact ih
  | «attribute» n v a ih => exact ih

theorem fieldOne_noForget (v : Ser) (name : EName) (h : NoForget v.children) : NoForget (fieldOne v name) := by
  unfold fieldOne writeElem
  refine embed_noForget _ _ (fun r => ?_)
  cases r with
  | error e => exact trivial
  | ok u =>
    refine ⟨lend_noForget _ (fun r => ?_) _ h _, fun _ => trivial⟩
    cases r with
    | error e => exact trivial
    | ok u => exact fun _ => trivial

theorem structSer_noForget (ns : List (String × String)) (fields : List SField) (h : ∀ p ∈ elementsOf fields, NoForget p)
    (h' : ∀ v ∈ flattenedOf fields, NoForget v.children) : NoForget (structSer ns fields).children := by
  have h1 : NoForget (flattens fields) := by
    clear h
    induction fields with
    | nil => exact trivial
    | cons f fs ih =>
      obtain ⟨nm, kind⟩ := f
      cases kind with
      | flatten v =>
        exact andThen_noForget (h' v (List.mem_cons_self)) (ih fun v hv => h' v (List.mem_cons_of_mem _ hv))
      | _ => exact ih h'
  unfold structSer
  simp only
  clear h'
  generalize flattens fields = q at h1
  induction fields with
  | nil => exact h1
  | cons f fs ih =>
    obtain ⟨nm, kind⟩ := f
    cases kind with
    | element w =>
      exact andThen_noForget (h _ (List.mem_cons_self)) (ih fun v hv => h v (List.mem_cons_of_mem _ hv))
    | _ => exact ih h

theorem closes_zero {es : List WEvent} (h : Closes 0 es) : ∃ f : WForest, es = f.events := by
  obtain ⟨f, fs, h1, rfl⟩ := h.split
  cases fs with
  | nil => exact ⟨f, by simp [segments]⟩
  | cons g fs => simp at h1

theorem inTurn_content (dbg : Bool) (sink : Sink) (n : Namespaces) (ps : List (Prog [.writer false])) (hf : ∀ p ∈ ps, NoForget p)
    (s s' : WState) (h : inTurn (ps.map (doing dbg sink n)) s = .ok (s', .ok ())) (hc : s'.poison = none) :
    s.poison = none ∧ ∃ fs : List WForest, Spec.Rowwise (fun p f => ∃ s0 s1, doing dbg sink n p s0 = .ok (s1, .ok ()) ∧ s0.poison = none ∧
      s1.poison = none ∧ s1.out = s0.out ++ f.events) ps fs ∧ s'.out = s.out ++ fs.flatMap WForest.events := by
  induction ps generalizing s with
  | nil =>
    simp only [List.map_nil, inTurn, Except.ok.injEq, Prod.mk.injEq, and_true] at h
    subst h
    exact ⟨hc, [], .nil, by simp⟩
  | cons p ps ih =>
    simp only [List.map_cons, inTurn] at h
    cases hp : doing dbg sink n p s with
    | error f => rw [hp] at h; exact nomatch h
    | ok x =>
      obtain ⟨s1, r⟩ := x
      rw [hp] at h
      cases r with
      | error e => simp at h
      | ok u =>
        simp only at h
        obtain ⟨h1, fs, h2, h3⟩ := ih (fun p hp => hf p (List.mem_cons_of_mem _ hp)) s1 h
        obtain ⟨h4, es, h5, h6⟩ := Prog.run_closes dbg sink p (hf p List.mem_cons_self) _ s s1 _ hp h1
        obtain ⟨f, rfl⟩ := closes_zero h6
        exact ⟨h4, f :: fs, .cons ⟨s, s1, hp, h4, h1, h5⟩ h2, by rw [h3, h5]; simp⟩

/-! ## Errors within an element are not lost -/

theorem start_error {sink : Sink} {b : Builder} {s s' : WState} {e : SErr} (h : b.start sink s = .ok (s', .error e)) :
    s'.poison = some e := by
  obtain ⟨n, q, attrs, -, -, -, rfl, h4⟩ := start_cases h
  rcases h4 with ⟨-, h4⟩ | ⟨e', h4, h5⟩
  · simp at h4
  · simp only [Except.error.injEq] at h5
    subst h5
    unfold WState.write at h4 ⊢
    cases hp : s.poison with
    | some p => simp only [hp] at h4 ⊢; simpa using h4
    | none =>
      simp only [hp] at h4 ⊢
      cases hs : sink s.out (.start q attrs n.byPrefix) with
      | some m => simp only [hs] at h4 ⊢; simpa using h4
      | none => simp [hs] at h4

theorem write_error {sink : Sink} {s : WState} {ev : WEvent} {a : Option (EName × List (EName × String))} {e : SErr}
    (h : (s.write sink ev a).2 = .error e) : (s.write sink ev a).1.poison = some e := by
  unfold WState.write at h ⊢
  cases hp : s.poison with
  | some p => simp only [hp] at h ⊢; simpa using h
  | none =>
    simp only [hp] at h ⊢
    cases hs : sink s.out ev with
    | some m => simp only [hs] at h ⊢; simpa using h
    | none => simp [hs] at h

theorem run_namespace (dbg : Bool) (sink : Sink) {hs : List Handle} (p u : String) (k : Prog (.builder :: hs)) (b : Builder) (rest : HStates hs) (s : WState) :
    Prog.run dbg sink (.namespace p u k) (.cons (h := .builder) b rest) s =
      match Builder.namespace dbg b p u with
      | .error f => .error f
      | .ok b => k.run dbg sink (.cons (h := .builder) b rest) s := rfl

theorem run_attribute' (dbg : Bool) (sink : Sink) {hs : List Handle} (n : EName) (v : String) (k : Except SErr Unit → Prog (.builder :: hs))
    (b : HState .builder) (rest : HStates hs) (s : WState) :
    Prog.run dbg sink (.attribute n v k) (.cons b rest) s =
      match Builder.attribute b n v with
      | .error f => .error f
      | .ok (b, r) => (k r).run dbg sink (.cons (h := .builder) b rest) s := by
  rw [Prog.run]
  cases h : Builder.attribute b n v with
  | error f => rfl
  | ok x => rfl

theorem run_attribute (dbg : Bool) (sink : Sink) {hs : List Handle} (n : EName) (v : String) (k : Except SErr Unit → Prog (.builder :: hs))
    (b : Builder) (rest : HStates hs) (s : WState) :
    Prog.run dbg sink (.attribute n v k) (.cons (h := .builder) b rest) s =
      match Builder.attribute b n v with
      | .error f => .error f
      | .ok (b, r) => (k r).run dbg sink (.cons (h := .builder) b rest) s := run_attribute' dbg sink n v k b rest s

theorem run_start' (dbg : Bool) (sink : Sink) {hs : List Handle} (ok : Prog (.writer true :: hs)) (fail : SErr → Prog hs) (b : HState .builder)
    (rest : HStates hs) (s : WState) :
    Prog.run dbg sink (.start ok fail) (.cons b rest) s =
      match Builder.start sink b s with
      | .error f => .error f
      | .ok (s, .ok n) => ok.run dbg sink (.cons (h := .writer true) n rest) s
      | .ok (s, .error e) => (fail e).run dbg sink rest s := by
  rw [Prog.run]
  cases h : Builder.start sink b s with
  | error f => rfl
  | ok x => obtain ⟨s', r⟩ := x; cases r <;> rfl

theorem run_start (dbg : Bool) (sink : Sink) {hs : List Handle} (ok : Prog (.writer true :: hs)) (fail : SErr → Prog hs) (b : Builder)
    (rest : HStates hs) (s : WState) :
    Prog.run dbg sink (.start ok fail) (.cons (h := .builder) b rest) s =
      match Builder.start sink b s with
      | .error f => .error f
      | .ok (s, .ok n) => ok.run dbg sink (.cons (h := .writer true) n rest) s
      | .ok (s, .error e) => (fail e).run dbg sink rest s := run_start' dbg sink ok fail b rest s

theorem embed_run (dbg : Bool) (sink : Sink) {hs : List Handle} (a : AttrProg) (k : Except SErr Unit → Prog (.builder :: hs)) (b : Builder)
    (rest : HStates hs) (s : WState) :
    (a.embed k).run dbg sink (.cons (h := .builder) b rest) s =
      match a.run dbg b with
      | .error f => .error f
      | .ok (b, r) => (k r).run dbg sink (.cons (h := .builder) b rest) s := by
  induction a generalizing b with
  | ret r => rfl
  | «namespace» p u a ih =>
    rw [AttrProg.embed, AttrProg.run, run_namespace]
    cases Builder.namespace dbg b p u with
    | error f => rfl
    | ok b' => exact ih b'
  | «attribute» n v a ih =>
    rw [AttrProg.embed, AttrProg.run, run_attribute]
    cases Builder.attribute b n v with
    | error f => rfl
    | ok x => obtain ⟨b', r⟩ := x; exact ih r b'

theorem poisonWith_poison (s : WState) (e : SErr) : (s.poisonWith e).poison = some (s.poison.getD e) := rfl

/-- What writing an element does, step by step. -/
theorem fieldOne_run (dbg : Bool) (sink : Sink) (n : Namespaces) (v : Ser) (name : EName) (s : WState) :
    doing dbg sink n (fieldOne v name) s =
      match v.attrs.run dbg (Builder.new name (n.child name.ns)) with
      | .error f => .error f
      | .ok (_, .error e) => .ok (s.poisonWith .builderDropped, .error e)
      | .ok (b, .ok ()) =>
        match b.start sink s with
        | .error f => .error f
        | .ok (s, .error e) => .ok (s, .error e)
        | .ok (s, .ok n') =>
          match doing dbg sink n' v.children s with
          | .error f => .error f
          | .ok (s, .error e) => .ok (s.poisonWith .writerDropped, .error e)
          | .ok (s, .ok ()) => .ok (s.write sink .stop none) := by
  unfold doing fieldOne writeElem
  rw [show ∀ p, Prog.run dbg sink (Prog.element (o := false) (hs := []) name p) (.cons (h := .writer false) n .nil) s =
    p.run dbg sink (.cons (h := .builder) (Builder.new name (n.child name.ns)) (.cons (h := .writer false) n .nil)) s from fun _ => rfl, embed_run]
  cases v.attrs.run dbg (Builder.new name (n.child name.ns)) with
  | error f => rfl
  | ok x =>
    obtain ⟨b, r⟩ := x
    cases r with
    | error e => rfl
    | ok u =>
      simp only
      rw [run_start]
      cases hb : b.start sink s with
      | error f => rfl
      | ok y =>
        obtain ⟨s1, r⟩ := y
        cases r with
        | error e => rfl
        | ok n' =>
          simp only
          have h := lend_run dbg sink (o := true) (hs := [.writer false]) (fun r =>
            match r with
            | .error e => .dropWriter (.ret (.error e))
            | .ok () => .finish .ret) (.cons (h := .writer false) n .nil) v.children .base (.cons (h := .writer false) n' .nil) s1
          refine Eq.trans ?_ (h.trans ?_)
          · rfl
          · cases v.children.run dbg sink (.cons (h := .writer false) n' .nil) s1 with
            | error f => rfl
            | ok z =>
              obtain ⟨s2, r⟩ := z
              cases r with
              | error e => rfl
              | ok u => rfl

theorem fieldOne_poison (dbg : Bool) (sink : Sink) (n : Namespaces) (v : Ser) (name : EName) (s s' : WState) (e : SErr)
    (h : doing dbg sink n (fieldOne v name) s = .ok (s', .error e)) : s'.poison ≠ none := by
  rw [fieldOne_run] at h
  split at h
  · exact nomatch h
  · simp only [Except.ok.injEq, Prod.mk.injEq] at h
    rw [← h.1, poisonWith_poison]; simp
  · split at h
    · exact nomatch h
    · rename_i hs
      simp only [Except.ok.injEq, Prod.mk.injEq] at h
      rw [← h.1, start_error hs]; simp
    · split at h
      · exact nomatch h
      · simp only [Except.ok.injEq, Prod.mk.injEq] at h
        rw [← h.1, poisonWith_poison]; simp
      · rename_i s2 _
        simp only [Except.ok.injEq] at h
        have : (s2.write sink .stop none).1.poison = some e := write_error (by rw [h])
        rw [h] at this
        rw [this]; simp

theorem inTurn_one {S : Type} (a : S → Except Fault (S × Except SErr Unit)) : inTurn [a] = a := by
  funext s
  unfold inTurn
  cases a s with
  | error f => rfl
  | ok x => obtain ⟨s2, r⟩ := x; cases r <;> rfl

theorem structSer_run (dbg : Bool) (sink : Sink) (n : Namespaces) (ns : List (String × String)) (fields : List SField) (s : WState) :
    doing dbg sink n (structSer ns fields).children s =
      inTurn ((elementsOf fields ++ (flattenedOf fields).map Ser.children).map (doing dbg sink n)) s := by
  rw [show (structSer ns fields).children = elemFields fields (flattens fields) from rfl, elemFields_run, List.map_append, inTurn_append, inTurn_append,
    inTurn_one, List.map_map, funext (flattens_run dbg sink n fields)]
  rfl

theorem structSer_document {dbg : Bool} {sink : Sink} {name : EName} {ns : List (String × String)} {fields : List SField}
    (h : ∀ p ∈ elementsOf fields, NoForget p) (h' : ∀ v ∈ flattenedOf fields, NoForget v.children) {s : WState}
    (hr : serializeTo dbg sink name (structSer ns fields).attrs (structSer ns fields).children = .ok (s, .ok ())) :
    ∃ q a m fs n, s.out = .start q a m :: (fs.flatMap WForest.events ++ [.stop]) ∧
      Spec.Rowwise (fun p f => ∃ s0 s1, doing dbg sink n p s0 = .ok (s1, .ok ()) ∧ s0.poison = none ∧ s1.poison = none ∧
        s1.out = s0.out ++ f.events) (elementsOf fields ++ (flattenedOf fields).map Ser.children) fs := by
  unfold serializeTo at hr
  simp only at hr
  split at hr
  · simp at hr
  · simp at hr
  · split at hr
    · simp at hr
    · simp at hr
    · rename_i s1 n hs
      obtain ⟨n', q, as, -, -, -, rfl, hn⟩ := start_cases hs
      split at hr
      · simp at hr
      · simp at hr
      · rename_i s2 hc
        simp only [Except.ok.injEq] at hr
        have h2 : (s2.write sink .stop none).2 = .ok () := by rw [hr]
        have h3 := write_ok h2
        obtain ⟨g1, g2, -⟩ := write_clean h3
        rw [show Prog.run dbg sink (structSer ns fields).children (.cons (h := .writer false) n .nil) _ =
          doing dbg sink n (structSer ns fields).children _ from rfl, structSer_run] at hc
        obtain ⟨k1, fs, k2, k3⟩ := inTurn_content dbg sink n _ (by
          intro p hp
          rcases List.mem_append.mp hp with hp | hp
          · exact h p hp
          · obtain ⟨v, hv, rfl⟩ := List.mem_map.mp hp
            exact h' v hv) _ _ hc g1
        obtain ⟨-, m2, -⟩ := write_clean k1
        rw [hr] at g2
        simp only at g2
        exact ⟨q, as, n'.byPrefix, fs, n, by rw [g2, k3, m2]; simp, k2⟩

/-- What an element field of a type with `Serialize` writes. -/
theorem fieldOne_written {dbg : Bool} {sink : Sink} {n : Namespaces} {v : Ser} {name : EName} (hf : NoForget v.children) {s s' : WState}
    (h : doing dbg sink n (fieldOne v name) s = .ok (s', .ok ())) :
    ∃ b m q as f s0 s1, v.attrs.run dbg (Builder.new name (n.child name.ns)) = .ok (b, .ok ()) ∧ b.ns.finalize = .ok m ∧
      m.resolveElement b.name = .ok q ∧ resolveAttrs m b.attrs = .ok as ∧ doing dbg sink m v.children s0 = .ok (s1, .ok ()) ∧
      s1.out = s0.out ++ f.events ∧ s'.out = s.out ++ documentEvents q as m.byPrefix f := by
  rw [fieldOne_run] at h
  split at h
  · exact nomatch h
  · simp at h
  · rename_i b hb
    split at h
    · exact nomatch h
    · simp at h
    · rename_i s1 m hs
      obtain ⟨n', q, as, a1, a2, a3, rfl, a4⟩ := start_cases hs
      have hm : m = n' := by
        rcases a4 with ⟨-, a4⟩ | ⟨e, -, a4⟩
        · simpa using a4
        · simp at a4
      subst hm
      split at h
      · exact nomatch h
      · simp at h
      · rename_i s2 hc
        simp only [Except.ok.injEq] at h
        have h2 : (s2.write sink .stop none).2 = .ok () := by rw [h]
        have h3 := write_ok h2
        obtain ⟨g1, g2, -⟩ := write_clean h3
        obtain ⟨k1, es, k2, k3⟩ := Prog.run_closes dbg sink v.children hf _ _ _ _ hc g1
        obtain ⟨-, m2, -⟩ := write_clean k1
        obtain ⟨f, rfl⟩ := closes_zero k3
        rw [h] at g2
        simp only at g2
        exact ⟨b, m, q, as, f, _, s2, hb, a1, a2, a3, hc, k2, by rw [g2, k2, m2]; simp [documentEvents]⟩

/-! ## Types of Part II -/

theorem lend_embed {o : Bool} {hs l m : List Handle} (k : WCont o hs) (b : Lent o hs l m) (a : AttrProg) (K : Except SErr Unit → Prog (.builder :: l)) :
    lend k (a.embed K) (.up _ b) = a.embed fun r => lend k (K r) (.up _ b) := by
  induction a with
  | ret r => rfl
  | «namespace» p u a ih => simp only [AttrProg.embed, lend, ih]
  | «attribute» n v a ih => simp only [AttrProg.embed, lend, ih]

theorem lend_writeUnit {o o1 o2 : Bool} {hs l m : List Handle} (k : WCont o hs) (b : Lent o hs (.writer o1 :: l) (.writer o2 :: m)) (name : EName)
    (k0 : WCont o1 l) : lend k (writeUnit name k0) b = writeUnit name fun r => lend k (k0 r) b := by
  unfold writeUnit
  rw [lend_element]
  simp only [lend]

theorem lend_writeElem {o o1 o2 : Bool} {hs l m : List Handle} (k : WCont o hs) (b : Lent o hs (.writer o1 :: l) (.writer o2 :: m)) (name : EName)
    (a : AttrProg) (c : WCont true (.writer o1 :: l) → Prog (.writer true :: .writer o1 :: l))
    (c' : WCont true (.writer o2 :: m) → Prog (.writer true :: .writer o2 :: m))
    (hc : ∀ kk, lend k (c kk) (.up _ b) = c' fun r => lend k (kk r) (.up _ b)) (k0 : WCont o1 l) :
    lend k (writeElem name a c k0) b = writeElem name a c' fun r => lend k (k0 r) b := by
  unfold writeElem
  rw [lend_element, lend_embed]
  congr 2
  funext r
  cases r with
  | error e => simp only [lend]
  | ok u =>
    simp only [lend, hc]
    congr 2
    funext r
    cases r <;> simp only [lend]

/-- Lending the writer to derived code is the same as inlining it. -/
def Inlines (env : Env) (ty : Ty) (v : Val) : Prop :=
  ∀ (o o1 o2 : Bool) (hs l m : List Handle) (k : WCont o hs) (b : Lent o hs (.writer o1 :: l) (.writer o2 :: m)) (k0 : WCont o1 l),
    lend k (writeChildren env ty v k0) b = writeChildren env ty v fun r => lend k (k0 r) b

theorem lend_items (env : Env) (its : List Item) (h : ∀ it ∈ its, ∀ ty v, it.value = some (ty, v) → Inlines env ty v)
    {o o1 o2 : Bool} {hs l m : List Handle} (k : WCont o hs) (b : Lent o hs (.writer o1 :: l) (.writer o2 :: m)) (k0 : WCont o1 l) :
    lend k (runItems env its k0) b = runItems env its fun r => lend k (k0 r) b := by
  induction its generalizing k0 with
  | nil => rfl
  | cons it its ih =>
    have hk : (fun r => lend k ((k0.next (runItems env its k0)) r) b) =
        WCont.next (fun r => lend k (k0 r) b) (runItems env its fun r => lend k (k0 r) b) := by
      funext r
      cases r with
      | error e => rfl
      | ok u => exact ih (fun it hi => h it (List.mem_cons_of_mem _ hi)) k0
    unfold runItems runItem
    cases hv : it.value with
    | none =>
      simp only
      rw [lend_writeUnit, hk]
    | some x =>
      obtain ⟨ty, v⟩ := x
      simp only
      rw [lend_writeElem k b it.name _ _ (fun k => writeChildren env ty v k)
        (fun kk => h it List.mem_cons_self ty v hv _ _ _ _ _ _ _ _ _), hk]

theorem valuesOf_size {c : Card} {v x : Val} (h : x ∈ valuesOf c v) : sizeOf x ≤ sizeOf v := by
  cases c with
  | one => simp only [valuesOf, List.mem_singleton] at h; subst h; exact Nat.le_refl _
  | opt =>
    cases v with
    | opt o =>
      cases o with
      | none => simp [valuesOf] at h
      | some w => simp [valuesOf] at h; subst h; simp; omega
    | _ => simp [valuesOf] at h
  | many =>
    cases v with
    | vec l =>
      simp only [valuesOf] at h
      have := List.sizeOf_lt_of_mem h
      simp; omega
    | _ => simp [valuesOf] at h

theorem fieldItems_size {s : Slot} {name : EName} {v : Val} {it : Item} (h : it ∈ fieldItems s name v) {ty : Ty} {x : Val}
    (hv : it.value = some (ty, x)) : sizeOf x ≤ sizeOf v := by
  obtain ⟨y, hy, rfl⟩ := List.mem_map.mp h
  simp only [Option.some.injEq, Prod.mk.injEq] at hv
  rw [← hv.2]
  exact valuesOf_size hy

theorem variantItems_size {d : EnumDef} {v : Val} {it : Item} (h : it ∈ variantItems d v) {ty : Ty} {x : Val}
    (hv : it.value = some (ty, x)) : sizeOf x < sizeOf v := by
  cases v with
  | enm j p =>
    simp only [variantItems] at h
    split at h
    · exact nomatch h
    · split at h
      · exact nomatch h
      · split at h
        · simp only [List.mem_singleton] at h
          subst h
          exact nomatch hv
        · have := fieldItems_size h hv
          simp; omega
        · exact nomatch h
  | _ => exact nomatch h

theorem structItems_size {env : Env} {fields : List Field} {vs : List Val} {it : Item} (h : it ∈ structItems env fields vs) {ty : Ty} {x : Val}
    (hv : it.value = some (ty, x)) : sizeOf x < sizeOf (Val.strct vs) := by
  rcases List.mem_append.mp h with h | h
  · obtain ⟨y, hy, h⟩ := List.mem_flatMap.mp h
    have h1 := List.sizeOf_lt_of_mem (List.of_mem_zip hy).2
    split at h
    · have := fieldItems_size h hv
      simp; omega
    · exact nomatch h
  · obtain ⟨y, hy, h⟩ := List.mem_flatMap.mp h
    have h1 := List.sizeOf_lt_of_mem (List.of_mem_zip hy).2
    split at h
    · have := variantItems_size h hv
      simp; omega
    · exact nomatch h

theorem inlines_below (env : Env) (n : Nat) : ∀ (ty : Ty) (v : Val), sizeOf v < n → Inlines env ty v := by
  induction n with
  | zero => intro ty v h; omega
  | succ n ih =>
    intro ty v hn o o1 o2 hs l m k b k0
    cases ty with
    | text t =>
      rw [writeChildren.eq_def, writeChildren.eq_def env (.text t)]
      cases v with
      | text tv =>
        simp only
        cases t.toText tv with
        | none => rfl
        | some s => simp only; rw [lend_text]
      | _ => rfl
    | strct i =>
      cases v with
      | strct vs =>
        rw [writeStruct_items, writeStruct_items]
        refine lend_items env _ (fun it hi ty v hv => ih ty v ?_) k b k0
        have := structItems_size hi hv
        omega
      | _ => rw [writeChildren.eq_def, writeChildren.eq_def env (.strct i)]
    | enm i =>
      rw [writeVariant_items, writeVariant_items]
      refine lend_items env _ (fun it hi ty x hv => ih ty x ?_) k b k0
      have := variantItems_size hi hv
      omega

theorem inlines (env : Env) (ty : Ty) (v : Val) : Inlines env ty v := inlines_below env (sizeOf v + 1) ty v (by omega)

theorem fieldOne_open (env : Env) (ty : Ty) (v : Val) (name : EName) :
    fieldOne (serOf env ty v) name = runItems env [{ name, value := some (ty, v) }] .ret := by
  unfold fieldOne serOf runItems runItem runItems
  simp only
  rw [show WCont.next (Prog.ret (r := ·)) (Prog.ret (.ok ())) = Prog.ret from by funext r; cases r <;> rfl]
  congr 1
  funext kk
  exact inlines env ty v _ _ _ _ _ _ kk .base .ret

theorem lend_itemsAll (env : Env) (its : List Item) {o o1 o2 : Bool} {hs l m : List Handle} (k : WCont o hs)
    (b : Lent o hs (.writer o1 :: l) (.writer o2 :: m)) (k0 : WCont o1 l) :
    lend k (runItems env its k0) b = runItems env its fun r => lend k (k0 r) b :=
  lend_items env its (fun _ _ ty v _ => inlines env ty v) k b k0

theorem andThen_items (env : Env) (a : List Item) (q : Prog [.writer false]) :
    andThen (runItems env a .ret) q = runItems env a (WCont.next .ret q) := by
  unfold andThen
  rw [lend_itemsAll]
  congr 1

theorem next_ret : WCont.next (o := false) (hs := []) .ret (.ret (.ok ())) = .ret := by
  funext r; cases r <;> rfl

theorem slotSer_open (env : Env) (s : Slot) (v : Val) (name : EName) :
    slotSer env s v name = runItems env (fieldItems s name v) .ret := by
  obtain ⟨card, ty⟩ := s
  unfold slotSer fieldItems
  cases card with
  | one => exact fieldOne_open env ty v name
  | opt =>
    cases v with
    | opt o =>
      cases o with
      | none => rfl
      | some w =>
        simp only [Option.map_some, fieldOpt, valuesOf]
        rw [fieldOne_open, andThen_items, next_ret]
        rfl
    | _ => rfl
  | many =>
    cases v with
    | vec l =>
      simp only [valuesOf]
      induction l with
      | nil => rfl
      | cons v l ih =>
        simp only [List.map_cons, fieldVec] at ih ⊢
        rw [ih, fieldOne_open, andThen_items]
        rfl
    | _ => rfl

theorem elemFields_open (env : Env) (fields : List Field) (vs : List Val) (its : List Item) :
    elemFields (serFields env fields vs) (runItems env its .ret) = runItems env (((fields.zip vs).flatMap fun x =>
      match x.1.kind with
      | .element s => fieldItems s x.1.name.expanded x.2
      | _ => []) ++ its) .ret := by
  unfold serFields
  induction fields.zip vs with
  | nil => rfl
  | cons x l ih =>
    obtain ⟨f, v⟩ := x
    simp only [List.map_cons, elemFields, List.flatMap_cons]
    cases hk : f.kind with
    | element s =>
      simp only
      rw [ih, slotSer_open, andThen_items, List.append_assoc, ← runItems_append]
    | _ => simpa using ih

theorem flattens_open (env : Env) (fields : List Field) (vs : List Val) :
    flattens (serFields env fields vs) = runItems env ((fields.zip vs).flatMap fun x =>
      match x.1.kind with
      | .flatten e => variantItems (env.enm e) x.2
      | _ => []) .ret := by
  unfold serFields
  induction fields.zip vs with
  | nil => rfl
  | cons x l ih =>
    obtain ⟨f, v⟩ := x
    simp only [List.map_cons, flattens, List.flatMap_cons]
    cases hk : f.kind with
    | flatten e =>
      simp only
      rw [ih, runItems_append]
      unfold serOf
      simp only
      rw [writeVariant_items, andThen_items]
    | _ => simpa using ih

theorem structSer_children (env : Env) (i : Nat) (vs : List Val) (ns : List (String × String)) :
    (structSer ns (serFields env (env.strct i).fields vs)).children = writeChildren env (.strct i) (.strct vs) .ret := by
  unfold structSer
  simp only
  rw [flattens_open, elemFields_open, writeStruct_items]
  rfl

theorem attr_thenOk (n : EName) (s : String) :
    (AttrProg.attribute n s fun r => .ret r).andThen (.ret (.ok ())) = .attribute n s fun r => .ret r := by
  simp only [AttrProg.andThen]
  congr 1
  funext r
  cases r <;> rfl

theorem attrSer_open (o : Bool) (t : TextTy) (v : Val) (name : EName) : attrSer o t v name = writeAttr o t name v := by
  unfold attrSer writeAttr attrOpt attrOne
  cases o with
  | false =>
    cases v with
    | text tv =>
      simp only
      cases t.toText tv with
      | none => rfl
      | some s => exact attr_thenOk name s
    | _ => rfl
  | true =>
    cases v with
    | opt w =>
      cases w with
      | none => rfl
      | some w =>
        cases w with
        | text tv =>
          simp only
          cases t.toText tv with
          | none => rfl
          | some s => exact attr_thenOk name s
        | _ => rfl
    | _ => rfl

theorem serFields_cons (env : Env) (f : Field) (fs : List Field) (v : Val) (vs : List Val) :
    serFields env (f :: fs) (v :: vs) = ⟨f.name,
      match f.kind with
      | .element s => .element (slotSer env s v)
      | .attribute o t => .attribute (attrSer o t v)
      | .flatten e => .flatten (serOf env (.enm e) v)
      | .text _ => .text⟩ :: serFields env fs vs := rfl

theorem attrFields_open (env : Env) (fields : List Field) (vs : List Val) :
    attrFields (serFields env fields vs) = writeAttrFields fields vs := by
  induction fields generalizing vs with
  | nil => rfl
  | cons f fs ih =>
    cases vs with
    | nil => rfl
    | cons v vs =>
      rw [serFields_cons]
      simp only [attrFields, writeAttrFields]
      cases f.kind with
      | «attribute» o t => simp only [ih, attrSer_open]
      | _ => exact ih vs

theorem flattenAttrs_open (env : Env) (fields : List Field) (vs : List Val) (h : vs.length = fields.length) :
    flattenAttrs (serFields env fields vs) = writeFlattenAttrs env fields := by
  induction fields generalizing vs with
  | nil => rfl
  | cons f fs ih =>
    cases vs with
    | nil => exact nomatch h
    | cons v vs =>
      rw [serFields_cons]
      simp only [flattenAttrs, writeFlattenAttrs]
      cases f.kind with
      | flatten e => simp only [ih vs (by simpa using h)]; rfl
      | _ => exact ih vs (by simpa using h)

theorem structSer_attrs (env : Env) (i : Nat) (vs : List Val) (h : vs.length = (env.strct i).fields.length) :
    (structSer (env.strct i).namespaces (serFields env (env.strct i).fields vs)).attrs = writeAttributes env (.strct i) (.strct vs) := by
  unfold structSer writeAttributes
  simp only
  rw [attrFields_open, flattenAttrs_open env _ vs h]

theorem enumSer_open (env : Env) (i j : Nat) (p : Option Val) :
    enumSer (env.enm i).namespaces (serVariant env (env.enm i) j p) = serOf env (.enm i) (.enm j p) := by
  unfold serOf
  rw [writeVariant_items]
  unfold enumSer serVariant variantItems
  simp only [writeAttributes, Ser.mk.injEq, true_and]
  cases hw : (env.enm i).variants[j]? with
  | none => rfl
  | some w =>
    simp only
    by_cases hs : w.skip = true
    · simp only [hs, if_true]
      rfl
    · simp only [if_neg hs]
      cases w.slot with
      | none =>
        cases p with
        | none =>
          simp only
          unfold andThen
          rw [lend_writeUnit]
          unfold runItems runItem runItems
          simp only
          congr 1
        | some p => rfl
      | some s =>
        cases p with
        | none => rfl
        | some p =>
          simp only
          rw [slotSer_open, andThen_items, next_ret]

end SX.Open
