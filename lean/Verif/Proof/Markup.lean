import Verif.Spec.Markup
import Verif.Props.Typed

namespace SX.Markup
open SX.Spec SX.Spec.Open

theorem same_refl (r : Except SErr Unit) : SameResult r r := rfl

theorem same_ok {r : Except SErr Unit} {u : Unit} (h : SameResult (.ok u) r) : r = .ok () := by
  cases r with
  | ok u => rfl
  | error e => simp [SameResult, Except.mapError] at h

theorem same_error {r : Except SErr Unit} {e : SErr} (h : SameResult (.error e) r) : ∃ e', r = .error e' := by
  cases r with
  | ok u => simp [SameResult, Except.mapError] at h
  | error e => exact ⟨e, rfl⟩

/-- Builders with the same mappings and the same names. -/
structure SameBuilder (b b' : Builder) : Prop where
  name : b.name = b'.name
  ns : b.ns = b'.ns
  seen : b.seen = b'.seen
  attrs : b.attrs.map Prod.fst = b'.attrs.map Prod.fst

theorem namespace_same {dbg : Bool} {b b' : Builder} (h : SameBuilder b b') (p u : String) :
    (∃ f, b.namespace dbg p u = .error f ∧ b'.namespace dbg p u = .error f) ∨
    ∃ c c', b.namespace dbg p u = .ok c ∧ b'.namespace dbg p u = .ok c' ∧ SameBuilder c c' := by
  unfold Builder.namespace
  rw [← h.ns]
  cases b.ns.insert dbg p u with
  | error f => exact .inl ⟨f, rfl, rfl⟩
  | ok ns => exact .inr ⟨_, _, rfl, rfl, h.name, rfl, h.seen, h.attrs⟩

theorem find_same {l l' : List (EName × String)} (n : EName) (h : l.map Prod.fst = l'.map Prod.fst) :
    (l.find? (fun a => a.1 == n) = none ∧ l'.find? (fun a => a.1 == n) = none) ∨
    ∃ x x', l.find? (fun a => a.1 == n) = some x ∧ l'.find? (fun a => a.1 == n) = some x' := by
  induction l generalizing l' with
  | nil => cases l' with | nil => exact .inl ⟨rfl, rfl⟩ | cons y l' => simp at h
  | cons x l ih =>
    cases l' with
    | nil => simp at h
    | cons y l' =>
      simp only [List.map_cons, List.cons.injEq] at h
      simp only [List.find?_cons, ← h.1]
      cases x.1 == n with
      | true => exact .inr ⟨_, _, rfl, rfl⟩
      | false => exact ih h.2

theorem attribute_same {b b' : Builder} (h : SameBuilder b b') (n : EName) (v v' : String) :
    (∃ f, b.attribute n v = .error f ∧ b'.attribute n v' = .error f) ∨
    ∃ c c' r r', b.attribute n v = .ok (c, r) ∧ b'.attribute n v' = .ok (c', r') ∧ SameBuilder c c' ∧ SameResult r r' := by
  unfold Builder.attribute
  rw [← h.seen]
  split
  · rcases find_same n h.attrs with ⟨h1, h2⟩ | ⟨x, x', h1, h2⟩
    · exact .inl ⟨.panic, by rw [h1], by rw [h2]⟩
    · rw [h1, h2]
      exact .inr ⟨_, _, _, _, rfl, rfl, h, rfl⟩
  · refine .inr ⟨_, _, _, _, rfl, rfl, ⟨h.name, ?_, ?_, ?_⟩, rfl⟩
    · simp only [h.ns]
    · rfl
    · simp only [List.map_append, h.attrs, List.map_cons]

theorem resolve_same {n : Namespaces} {l l' : List (EName × String)} (h : l.map Prod.fst = l'.map Prod.fst) :
    (∃ f, resolveAttrs n l = .error f ∧ resolveAttrs n l' = .error f) ∨
    ∃ as as', resolveAttrs n l = .ok as ∧ resolveAttrs n l' = .ok as' ∧ as.map (fun a => (a.1, "")) = as'.map (fun a => (a.1, "")) := by
  induction l generalizing l' with
  | nil => cases l' with | nil => exact .inr ⟨_, _, rfl, rfl, rfl⟩ | cons y l' => simp at h
  | cons x l ih =>
    cases l' with
    | nil => simp at h
    | cons y l' =>
      obtain ⟨x1, x2⟩ := x
      obtain ⟨y1, y2⟩ := y
      simp only [List.map_cons, List.cons.injEq] at h
      obtain ⟨rfl, h⟩ := h
      simp only [resolveAttrs]
      cases n.resolveAttribute x1 with
      | error f => exact .inl ⟨f, rfl, rfl⟩
      | ok q =>
        rcases ih h with ⟨f, h1, h2⟩ | ⟨as, as', h1, h2, h3⟩
        · exact .inl ⟨f, by simp only [h1], by simp only [h2]⟩
        · simp only [h1, h2]
          exact .inr ⟨_, _, rfl, rfl, by simp only [List.map_cons, h3]⟩

/-- Writers that are in the same state, up to texts. -/
structure SameState (s s' : WState) : Prop where
  out : s.out.map markup = s'.out.map markup
  poison : s.poison = s'.poison

theorem write_same {sink sink' : Sink} (hk : SameSinks sink sink') {s s' : WState} (h : SameState s s') {e e' : WEvent} (he : markup e = markup e')
    (a a' : Option (EName × List (EName × String))) : SameState (s.write sink e a).1 (s'.write sink' e' a').1 ∧ (s.write sink e a).2 = (s'.write sink' e' a').2 := by
  unfold WState.write
  rw [← h.poison]
  split
  · exact ⟨⟨h.out, rfl⟩, rfl⟩
  · rename_i hp
    rw [← hk _ _ _ _ h.out he]
    split
    · exact ⟨⟨h.out, rfl⟩, rfl⟩
    · exact ⟨⟨by simp [h.out, he], rfl⟩, rfl⟩

theorem poison_same {s s' : WState} (h : SameState s s') (e : SErr) : SameState (s.poisonWith e) (s'.poisonWith e) :=
  ⟨h.out, by simp only [WState.poisonWith, h.poison]⟩

theorem start_same {sink sink' : Sink} (hk : SameSinks sink sink') {b b' : Builder} (hb : SameBuilder b b') {s s' : WState} (h : SameState s s') :
    (∃ f, b.start sink s = .error f ∧ b'.start sink' s' = .error f) ∨
    ∃ t t' r, b.start sink s = .ok (t, r) ∧ b'.start sink' s' = .ok (t', r) ∧ SameState t t' := by
  unfold Builder.start
  rw [← hb.ns, ← hb.name]
  cases b.ns.finalize with
  | error f => exact .inl ⟨f, rfl, rfl⟩
  | ok n =>
    simp only
    cases n.resolveElement b.name with
    | error f => exact .inl ⟨f, rfl, rfl⟩
    | ok q =>
      simp only
      rcases resolve_same (n := n) hb.attrs with ⟨f, h1, h2⟩ | ⟨as, as', h1, h2, h3⟩
      · exact .inl ⟨f, by simp only [h1], by simp only [h2]⟩
      · simp only [h1, h2]
        have h4 := write_same hk h (e := .start q as n.byPrefix) (e' := .start q as' n.byPrefix) (by simp only [markup, h3]) (some (b.name, b.attrs)) (some (b.name, b'.attrs))
        revert h4
        generalize s.write sink _ _ = x
        generalize s'.write sink' _ _ = y
        obtain ⟨t, r⟩ := x
        obtain ⟨t', r'⟩ := y
        rintro ⟨h4, h5⟩
        simp only at h5
        subst h5
        cases r with
        | error e => exact .inr ⟨_, _, _, rfl, rfl, h4⟩
        | ok u => exact .inr ⟨_, _, _, rfl, rfl, h4⟩

/-- Handles in the same state, up to values. -/
inductive SameHandles : {hs : List Handle} → HStates hs → HStates hs → Prop where
  | nil : SameHandles .nil .nil
  | builder {hs : List Handle} {b b' : HState .builder} {rest rest' : HStates hs} (h : SameBuilder b b') (hr : SameHandles rest rest') :
      SameHandles (.cons (h := .builder) b rest) (.cons (h := .builder) b' rest')
  | writer {o : Bool} {hs : List Handle} (n : HState (.writer o)) {rest rest' : HStates hs} (hr : SameHandles rest rest') :
      SameHandles (.cons (h := .writer o) n rest) (.cons (h := .writer o) n rest')

theorem attrs_same (dbg : Bool) {a a' : AttrProg} (h : AttrLike a a') {b b' : Builder} (hb : SameBuilder b b') :
    (∃ f, a.run dbg b = .error f ∧ a'.run dbg b' = .error f) ∨
    ∃ c c' r r', a.run dbg b = .ok (c, r) ∧ a'.run dbg b' = .ok (c', r') ∧ SameBuilder c c' ∧ SameResult r r' := by
  induction h generalizing b b' with
  | ret h => exact .inr ⟨_, _, _, _, rfl, rfl, hb, h⟩
  | «namespace» p u h ih =>
    simp only [AttrProg.run]
    rcases namespace_same (dbg := dbg) hb p u with ⟨f, h1, h2⟩ | ⟨c, c', h1, h2, h3⟩
    · exact .inl ⟨f, by simp only [h1], by simp only [h2]⟩
    · simp only [h1, h2]
      exact ih h3
  | «attribute» n v v' h ih =>
    simp only [AttrProg.run]
    rcases attribute_same hb n v v' with ⟨f, h1, h2⟩ | ⟨c, c', r, r', h1, h2, h3, h4⟩
    · exact .inl ⟨f, by simp only [h1], by simp only [h2]⟩
    · simp only [h1, h2]
      exact ih r r' h4 h3

theorem run_same (dbg : Bool) {sink sink' : Sink} (hk : SameSinks sink sink') {hs : List Handle} {p p' : Prog hs} (h : Like p p') {st st' : HStates hs}
    (hst : SameHandles st st') {s s' : WState} (hw : SameState s s') : SameMarkup (p.run dbg sink st s) (p'.run dbg sink' st' s') := by
  induction h generalizing s s' with
  | ret h => exact .done hw.out hw.poison h
  | element name h ih =>
    cases hst with | writer n hr =>
    simp only [Prog.run]
    exact ih (.builder ⟨rfl, rfl, rfl, rfl⟩ (.writer n hr)) hw
  | text t t' h ih =>
    simp only [Prog.run]
    have h4 := write_same hk hw (e := .chars t) (e' := .chars t') rfl none none
    rw [h4.2]
    exact ih _ hst h4.1
  | «namespace» p u h ih =>
    cases hst with | builder hb hr =>
    simp only [Prog.run]
    rcases namespace_same (dbg := dbg) hb p u with ⟨f, h1, h2⟩ | ⟨c, c', h1, h2, h3⟩
    · rw [h1, h2]; exact .panic f
    · rw [h1, h2]
      exact ih (.builder h3 hr) hw
  | «attribute» n v v' h ih =>
    cases hst with | builder hb hr =>
    simp only [Prog.run]
    rcases attribute_same hb n v v' with ⟨f, h1, h2⟩ | ⟨c, c', r, r', h1, h2, h3, h4⟩
    · rw [h1, h2]; exact .panic f
    · rw [h1, h2]
      exact ih r r' h4 (.builder h3 hr) hw
  | start h hf ih ihf =>
    cases hst with | builder hb hr =>
    simp only [Prog.run]
    rcases start_same hk hb hw with ⟨f, h1, h2⟩ | ⟨t, t', r, h1, h2, h3⟩
    · rw [h1, h2]; exact .panic f
    · rw [h1, h2]
      cases r with
      | ok n => exact ih (.writer n hr) h3
      | error e => exact ihf e hr h3
  | finish h ih =>
    cases hst with | writer n hr =>
    simp only [Prog.run]
    have h4 := write_same hk hw (e := .stop) (e' := .stop) rfl none none
    rw [h4.2]
    exact ih _ hr h4.1
  | dropBuilder h ih =>
    cases hst with | builder hb hr =>
    exact ih hr (poison_same hw _)
  | dropWriter h ih =>
    cases hst with | writer n hr =>
    exact ih hr (poison_same hw _)
  | forgetBuilder h ih =>
    cases hst with | builder hb hr =>
    exact ih hr hw
  | forgetWriter h ih =>
    cases hst with | writer n hr =>
    exact ih hr hw

theorem serialize_same (dbg : Bool) {sink sink' : Sink} (hk : SameSinks sink sink') (name : EName) {a a' : AttrProg} (ha : AttrLike a a')
    {p p' : Prog [.writer false]} (hp : Like p p') : SameMarkup (serializeTo dbg sink name a p) (serializeTo dbg sink' name a' p') := by
  unfold serializeTo
  simp only
  have hs0 : SameState { out := [], poison := none, steps := [] } { out := [], poison := none, steps := [] } := ⟨rfl, rfl⟩
  rcases attrs_same dbg ha (b := Builder.new name []) (b' := Builder.new name []) ⟨rfl, rfl, rfl, rfl⟩ with ⟨f, h1, h2⟩ | ⟨c, c', r, r', h1, h2, h3, h4⟩
  · rw [h1, h2]; exact .panic f
  · rw [h1, h2]
    cases r with
    | error e =>
      obtain ⟨e', rfl⟩ := same_error h4
      exact .done (poison_same hs0 _).out (poison_same hs0 _).poison h4
    | ok u =>
      rw [same_ok h4]
      simp only
      rcases start_same hk h3 hs0 with ⟨f, k1, k2⟩ | ⟨t, t', r, k1, k2, k3⟩
      · rw [k1, k2]; exact .panic f
      · rw [k1, k2]
        cases r with
        | error e => exact .done k3.out k3.poison rfl
        | ok n =>
          simp only
          have h5 := run_same dbg hk hp (.writer (o := false) n .nil) k3
          revert h5
          generalize Prog.run dbg sink p _ _ = x
          generalize Prog.run dbg sink' p' _ _ = y
          intro h5
          cases h5 with
          | panic f => exact .panic f
          | done out poison result =>
            rename_i r r'
            cases r with
            | error e =>
              obtain ⟨e', rfl⟩ := same_error result
              exact .done (poison_same ⟨out, poison⟩ _).out (poison_same ⟨out, poison⟩ _).poison result
            | ok u =>
              rw [same_ok result]
              have h6 := write_same hk ⟨out, poison⟩ (e := .stop) (e' := .stop) rfl none none
              exact .done h6.1.out h6.1.poison (congrArg (Except.mapError SErr.bare) h6.2)


/-! ### Values -/

/-- Continuations that do the same. -/
def Conts {o : Bool} {hs : List Handle} (k k' : WCont o hs) : Prop := ∀ r r', SameResult r r' → Like (k r) (k' r')

theorem andThen_like {a a' b b' : AttrProg} (ha : AttrLike a a') (hb : AttrLike b b') : AttrLike (a.andThen b) (a'.andThen b') := by
  induction ha with
  | @ret r r' h =>
    cases r with
    | error e => obtain ⟨e', rfl⟩ := same_error h; exact .ret h
    | ok u => rw [same_ok h]; exact hb
  | «namespace» p u h ih => exact .namespace p u ih
  | «attribute» n v v' h ih => exact .attribute n v v' ih

theorem namespaces_like (l : List (String × String)) : AttrLike (writeNamespaces l) (writeNamespaces l) := by
  induction l with
  | nil => exact .ret rfl
  | cons x l ih => exact .namespace x.1 x.2 ih

theorem flattenAttrs_like (env : Env) (fs : List Field) : AttrLike (writeFlattenAttrs env fs) (writeFlattenAttrs env fs) := by
  induction fs with
  | nil => exact .ret rfl
  | cons f fs ih =>
    simp only [writeFlattenAttrs]
    split
    · exact andThen_like (namespaces_like _) ih
    · exact ih

theorem attr_like {o : Bool} {t : TextTy} (name : EName) {v v' : Val} (h : AttrTyped o t v) (h' : AttrTyped o t v') (hb : bare v = bare v') :
    AttrLike (writeAttr o t name v) (writeAttr o t name v') := by
  rcases h with ⟨rfl, tv, rfl, h1⟩ | ⟨rfl, rfl | ⟨tv, rfl, h1⟩⟩
  · rcases h' with ⟨-, tv', rfl, h2⟩ | ⟨h2, -⟩
    · obtain ⟨s, h3⟩ := C64_printed h1
      obtain ⟨s', h4⟩ := C64_printed h2
      simp only [writeAttr, h3, h4]
      exact .attribute name s s' fun r r' h => .ret h
    · simp at h2
  · rcases h' with ⟨h2, -⟩ | ⟨-, rfl | ⟨tv', rfl, h2⟩⟩
    · simp at h2
    · exact .ret rfl
    · simp [bare, bareOpt] at hb
  · rcases h' with ⟨h2, -⟩ | ⟨-, rfl | ⟨tv', rfl, h2⟩⟩
    · simp at h2
    · simp [bare, bareOpt] at hb
    · obtain ⟨s, h3⟩ := C64_printed h1
      obtain ⟨s', h4⟩ := C64_printed h2
      simp only [writeAttr, h3, h4]
      exact .attribute name s s' fun r r' h => .ret h

/-- The attributes of these fields are of their types. -/
def AttrsTyped (fs : List Field) (vs : List Val) : Prop :=
  ∀ (p : Nat) (f : Field) (o : Bool) (t : TextTy) (v : Val), fs[p]? = some f → vs[p]? = some v → f.kind = .attribute o t → AttrTyped o t v

theorem attrFields_like {fs : List Field} {vs vs' : List Val} (h : AttrsTyped fs vs) (h' : AttrsTyped fs vs') (hb : bareAll vs = bareAll vs') :
    AttrLike (writeAttrFields fs vs) (writeAttrFields fs vs') := by
  induction fs generalizing vs vs' with
  | nil => exact .ret rfl
  | cons f fs ih =>
    cases vs with
    | nil =>
      cases vs' with
      | nil => exact .ret rfl
      | cons x vs' => simp [bareAll] at hb
    | cons v vs =>
      cases vs' with
      | nil => simp [bareAll] at hb
      | cons v' vs' =>
        simp only [bareAll, List.cons.injEq] at hb
        have hr := ih (vs := vs) (vs' := vs') (fun p g o t v a b c => h (p + 1) g o t v a b c) (fun p g o t v a b c => h' (p + 1) g o t v a b c) hb.2
        simp only [writeAttrFields]
        split
        · rename_i o t hk
          exact andThen_like (attr_like _ (h 0 f o t v rfl rfl hk) (h' 0 f o t v' rfl rfl hk) hb.1) hr
        · exact hr

theorem attributes_like {env : Env} {ty : Ty} {v v' : Val} (h : Typed env ty v) (h' : Typed env ty v') (hb : bare v = bare v') :
    AttrLike (writeAttributes env ty v) (writeAttributes env ty v') := by
  cases h with
  | text h => cases h' with | text h' => exact .ret rfl
  | strct len attrs texts cards elems flats =>
    cases h' with | strct len' attrs' texts' cards' elems' flats' =>
    simp only [bare, Val.strct.injEq] at hb
    exact andThen_like (namespaces_like _) (andThen_like (attrFields_like attrs attrs' hb) (flattenAttrs_like _ _))
  | unit hv hs => simp only [writeAttributes]; exact namespaces_like _
  | payload hv hs card items => simp only [writeAttributes]; exact namespaces_like _

theorem embed_like {hs : List Handle} {a a' : AttrProg} (h : AttrLike a a') {k k' : Except SErr Unit → Prog (.builder :: hs)}
    (hk : ∀ r r', SameResult r r' → Like (k r) (k' r')) : Like (a.embed k) (a'.embed k') := by
  induction h with
  | ret h => exact hk _ _ h
  | «namespace» p u h ih => exact .namespace p u ih
  | «attribute» n v v' h ih => exact .attribute n v v' ih

/-- What is to be shown of a value. -/
def LikeVal (env : Env) (v : Val) : Prop :=
  ∀ (ty : Ty) (v' : Val), Typed env ty v → Typed env ty v' → bare v = bare v' → ∀ {o : Bool} {hs : List Handle} (k k' : WCont o hs), Conts k k' →
    Like (writeChildren env ty v k) (writeChildren env ty v' k')

theorem elem_like {env : Env} {ty : Ty} {v v' : Val} (hv : LikeVal env v) (h : Typed env ty v) (h' : Typed env ty v') (hb : bare v = bare v') (name : EName)
    {o : Bool} {hs : List Handle} {k k' : WCont o hs} (hk : Conts k k') :
    Like (writeElem name (writeAttributes env ty v) (fun k => writeChildren env ty v k) k)
      (writeElem name (writeAttributes env ty v') (fun k => writeChildren env ty v' k) k') := by
  refine .element name (embed_like (attributes_like h h' hb) fun r r' hr => ?_)
  cases r with
  | error e =>
    obtain ⟨e', rfl⟩ := same_error hr
    exact .dropBuilder (hk _ _ hr)
  | ok u =>
    rw [same_ok hr]
    refine .start (hv ty v' h h' hb _ _ fun r r' hr => ?_) fun e => hk _ _ rfl
    cases r with
    | error e =>
      obtain ⟨e', rfl⟩ := same_error hr
      exact .dropWriter (hk _ _ hr)
    | ok u =>
      rw [same_ok hr]
      exact .finish fun r => hk _ _ rfl

theorem conts_then {o : Bool} {hs : List Handle} {k k' : WCont o hs} (hk : Conts k k') {p p' : Prog (.writer o :: hs)} (hp : Like p p') :
    Conts (fun r => match r with | .error e => k (.error e) | .ok () => p) (fun r => match r with | .error e => k' (.error e) | .ok () => p') := by
  intro r r' hr
  cases r with
  | error e =>
    obtain ⟨e', rfl⟩ := same_error hr
    exact hk _ _ hr
  | ok u =>
    rw [same_ok hr]
    exact hp

theorem vec_like {env : Env} {ty : Ty} (name : EName) {l l' : List Val} (hv : ∀ v ∈ l, LikeVal env v) (h : ∀ v ∈ l, Typed env ty v) (h' : ∀ v ∈ l', Typed env ty v)
    (hb : bareAll l = bareAll l') {o : Bool} {hs : List Handle} {k k' : WCont o hs} (hk : Conts k k') : Like (writeVec env ty name l k) (writeVec env ty name l' k') := by
  induction l generalizing l' with
  | nil =>
    cases l' with
    | nil => simp only [writeVec]; exact hk _ _ rfl
    | cons x l' => simp [bareAll] at hb
  | cons v l ih =>
    cases l' with
    | nil => simp [bareAll] at hb
    | cons v' l' =>
      simp only [bareAll, List.cons.injEq] at hb
      simp only [writeVec]
      exact elem_like (hv v (by simp)) (h v (by simp)) (h' v' (by simp)) hb.1 name
        (conts_then hk (ih (fun x hx => hv x (by simp [hx])) (fun x hx => h x (by simp [hx])) (fun x hx => h' x (by simp [hx])) hb.2))

theorem field_like {env : Env} {s : Slot} (name : EName) {v v' : Val} (hv : ∀ w ∈ valuesOf s.card v, LikeVal env w) (hc : CardOk s.card v) (hc' : CardOk s.card v')
    (h : ∀ w ∈ valuesOf s.card v, Typed env s.ty w) (h' : ∀ w ∈ valuesOf s.card v', Typed env s.ty w) (hb : bare v = bare v')
    {o : Bool} {hs : List Handle} {k k' : WCont o hs} (hk : Conts k k') : Like (writeField env s name v k) (writeField env s name v' k') := by
  obtain ⟨card, ty⟩ := s
  cases card with
  | one =>
    simp only [valuesOf, List.mem_singleton, forall_eq] at hv h h'
    simp only [writeField]
    exact elem_like hv h h' hb name hk
  | opt =>
    obtain ⟨w, rfl⟩ := hc
    obtain ⟨w', rfl⟩ := hc'
    simp only [bare, Val.opt.injEq] at hb
    cases w with
    | none =>
      cases w' with
      | none => simp only [writeField]; exact hk _ _ rfl
      | some w' => simp [bareOpt] at hb
    | some w =>
      cases w' with
      | none => simp [bareOpt] at hb
      | some w' =>
        simp only [bareOpt, Option.some.injEq] at hb
        simp only [valuesOf, Option.toList, List.mem_singleton, forall_eq] at hv h h'
        simp only [writeField]
        exact elem_like hv h h' hb name hk
  | many =>
    obtain ⟨l, rfl⟩ := hc
    obtain ⟨l', rfl⟩ := hc'
    simp only [bare, Val.vec.injEq] at hb
    simp only [valuesOf] at hv h h'
    simp only [writeField]
    exact vec_like name hv h h' hb hk

/-- Element fields of these are of their types. -/
def ElemsTyped (env : Env) (fs : List Field) (vs : List Val) : Prop :=
  ∀ (p : Nat) (f : Field) (s : Slot) (v : Val), fs[p]? = some f → vs[p]? = some v → f.kind = .element s → CardOk s.card v ∧ ∀ w ∈ valuesOf s.card v, Typed env s.ty w

/-- Flattened fields of these are of their types. -/
def FlatsTyped (env : Env) (fs : List Field) (vs : List Val) : Prop :=
  ∀ (p : Nat) (f : Field) (e : Nat) (v : Val), fs[p]? = some f → vs[p]? = some v → f.kind = .flatten e → Typed env (.enm e) v

theorem elemFields_like {env : Env} {fs : List Field} {vs vs' : List Val} (hv : ∀ v ∈ vs, ∀ c, ∀ w ∈ valuesOf c v, LikeVal env w)
    (h : ElemsTyped env fs vs) (h' : ElemsTyped env fs vs') (hb : bareAll vs = bareAll vs') {o : Bool} {hs : List Handle} {k k' : WCont o hs} (hk : Conts k k') :
    Like (writeElemFields env fs vs k) (writeElemFields env fs vs' k') := by
  induction fs generalizing vs vs' with
  | nil => simp only [writeElemFields]; exact hk _ _ rfl
  | cons f fs ih =>
    cases vs with
    | nil =>
      cases vs' with
      | nil => simp only [writeElemFields]; exact hk _ _ rfl
      | cons x vs' => simp [bareAll] at hb
    | cons v vs =>
      cases vs' with
      | nil => simp [bareAll] at hb
      | cons v' vs' =>
        simp only [bareAll, List.cons.injEq] at hb
        have hr := ih (vs := vs) (vs' := vs') (fun x hx => hv x (by simp [hx])) (fun p g s v a b c => h (p + 1) g s v a b c) (fun p g s v a b c => h' (p + 1) g s v a b c) hb.2
        simp only [writeElemFields]
        split
        · rename_i s hs
          obtain ⟨g1, g2⟩ := h 0 f s v rfl rfl hs
          obtain ⟨g3, g4⟩ := h' 0 f s v' rfl rfl hs
          exact field_like _ (hv v (by simp) _) g1 g3 g2 g4 hb.1 (conts_then hk hr)
        · exact hr

theorem flattens_like {env : Env} {fs : List Field} {vs vs' : List Val} (hv : ∀ v ∈ vs, LikeVal env v)
    (h : FlatsTyped env fs vs) (h' : FlatsTyped env fs vs') (hb : bareAll vs = bareAll vs') {o : Bool} {hs : List Handle} {k k' : WCont o hs} (hk : Conts k k') :
    Like (writeFlattens env fs vs k) (writeFlattens env fs vs' k') := by
  induction fs generalizing vs vs' with
  | nil => simp only [writeFlattens]; exact hk _ _ rfl
  | cons f fs ih =>
    cases vs with
    | nil =>
      cases vs' with
      | nil => simp only [writeFlattens]; exact hk _ _ rfl
      | cons x vs' => simp [bareAll] at hb
    | cons v vs =>
      cases vs' with
      | nil => simp [bareAll] at hb
      | cons v' vs' =>
        simp only [bareAll, List.cons.injEq] at hb
        have hr := ih (vs := vs) (vs' := vs') (fun x hx => hv x (by simp [hx])) (fun p g s v a b c => h (p + 1) g s v a b c) (fun p g s v a b c => h' (p + 1) g s v a b c) hb.2
        simp only [writeFlattens]
        split
        · rename_i e he
          exact hv v (by simp) _ v' (h 0 f e v rfl rfl he) (h' 0 f e v' rfl rfl he) hb.1 _ _ (conts_then hk hr)
        · exact hr

theorem valuesOf_size {c : Card} {v w : Val} (h : w ∈ valuesOf c v) : sizeOf w ≤ sizeOf v := by
  cases c with
  | one => simp only [valuesOf, List.mem_singleton] at h; subst h; exact Nat.le_refl _
  | opt =>
    rcases v with _ | _ | _ | x | _ <;> try (simp [valuesOf] at h; done)
    cases x with
    | none => simp [valuesOf] at h
    | some x => simp only [valuesOf, List.mem_singleton] at h; subst h; simp; omega
  | many =>
    rcases v with _ | _ | _ | _ | l <;> try (simp [valuesOf] at h; done)
    simp only [valuesOf] at h
    have := List.sizeOf_lt_of_mem h
    simp
    omega

theorem children_like (env : Env) (n : Nat) : ∀ v, sizeOf v < n → LikeVal env v := by
  induction n with
  | zero => intro v h; omega
  | succ n ih =>
    intro v hn ty v' h h' hb o hs k k' hk
    cases h with
    | text h1 =>
      cases h' with | text h2 =>
      obtain ⟨s, h3⟩ := C64_printed h1
      obtain ⟨s', h4⟩ := C64_printed h2
      simp only [writeChildren, h3, h4]
      exact .text s s' fun r => hk _ _ rfl
    | @strct i vs len attrs texts cards elems flats =>
      cases h' with | strct len' attrs' texts' cards' elems' flats' =>
      simp only [bare, Val.strct.injEq] at hb
      have hm : ∀ x ∈ vs, sizeOf x < n := fun x hx => by
        have := List.sizeOf_lt_of_mem hx
        simp at hn
        omega
      simp only [writeChildren]
      refine elemFields_like (fun x hx c w hw => ih w (Nat.lt_of_le_of_lt (valuesOf_size hw) (hm x hx))) (fun p f s v a b c => ⟨cards p f s v a b c, fun w hw => elems p f s v w a b c hw⟩)
        (fun p f s v a b c => ⟨cards' p f s v a b c, fun w hw => elems' p f s v w a b c hw⟩) hb ?_
      exact conts_then hk (flattens_like (fun x hx => ih x (hm x hx)) flats flats' hb hk)
    | @unit i j w hv hs =>
      cases h' with
      | unit hv' hs' =>
        simp only [bare, bareOpt, Val.enm.injEq, and_true] at hb
        subst hb
        rw [hv] at hv'
        cases hv'
        simp only [writeChildren, hv, hs]
        split
        · exact hk _ _ rfl
        · exact .element _ (.start (.finish fun r => hk _ _ rfl) fun e => hk _ _ rfl)
      | payload hv' hs' card' items' => simp [bare, bareOpt] at hb
    | @payload i j w s p hv hs card items =>
      cases h' with
      | unit hv' hs' => simp [bare, bareOpt] at hb
      | payload hv' hs' card' items' =>
        simp only [bare, bareOpt, Val.enm.injEq, Option.some.injEq] at hb
        obtain ⟨rfl, hb⟩ := hb
        rw [hv] at hv'
        cases hv'
        rw [hs] at hs'
        cases hs'
        simp only [writeChildren, hv, hs]
        split
        · exact hk _ _ rfl
        · exact field_like _ (fun x hx => ih x (by have := valuesOf_size hx; simp at hn; omega)) card card' items items' hb hk

/-! ### Fields of any types -/

open SX.Open in
theorem lend_like {o : Bool} {hs : List Handle} {k k' : WCont o hs} (hk : Conts k k') {l m : List Handle} {p p' : Prog l} (h : Like p p') (b : Lent o hs l m) :
    Like (lend k p b) (lend k' p' b) := by
  induction h generalizing m with
  | ret h =>
    cases b with
    | base => exact hk _ _ h
    | up _ b => cases b
  | element name h ih =>
    cases b with
    | base => exact .element name (ih _)
    | up _ b => simp only [lend]; exact .element name (ih _)
  | text s s' h ih =>
    cases b with
    | base => exact .text s s' fun r => ih r _
    | up _ b => simp only [lend]; exact .text s s' fun r => ih r _
  | «namespace» p u h ih => cases b with | up _ b => exact .namespace p u (ih _)
  | «attribute» n v v' h ih => cases b with | up _ b => exact .attribute n v v' fun r r' hr => ih r r' hr _
  | start h hf ih ihf => cases b with | up _ b => exact .start (ih _) fun e => ihf e _
  | finish h ih => cases b with | up _ b => exact .finish fun r => ih r _
  | dropBuilder h ih => cases b with | up _ b => exact .dropBuilder (ih _)
  | dropWriter h ih => cases b with | up _ b => exact .dropWriter (ih _)
  | forgetBuilder h ih => cases b with | up _ b => exact .forgetBuilder (ih _)
  | forgetWriter h ih => cases b with | up _ b => exact .forgetWriter (ih _)

theorem conts_ret : Conts (o := false) (hs := []) Prog.ret Prog.ret := fun _ _ h => .ret h

theorem seq_like {p p' q q' : Prog [.writer false]} (hp : Like p p') (hq : Like q q') : Like (SX.Open.andThen p q) (SX.Open.andThen p' q') :=
  lend_like (conts_then (k := Prog.ret) (k' := Prog.ret) conts_ret hq) hp .base

theorem one_like {v v' : SX.Open.Ser} (h : SerLike v v') (name : EName) : Like (SX.Open.fieldOne v name) (SX.Open.fieldOne v' name) := by
  refine .element name (embed_like h.attrs fun r r' hr => ?_)
  cases r with
  | error e =>
    obtain ⟨e', rfl⟩ := same_error hr
    exact .dropBuilder (.ret hr)
  | ok u =>
    rw [same_ok hr]
    refine .start (lend_like (fun r r' hr => ?_) h.children .base) fun e => .ret rfl
    cases r with
    | error e =>
      obtain ⟨e', rfl⟩ := same_error hr
      exact .dropWriter (.ret hr)
    | ok u =>
      rw [same_ok hr]
      exact .finish fun r => .ret rfl

theorem many_like {l l' : List SX.Open.Ser} (h : Rowwise SerLike l l') (name : EName) : Like (SX.Open.fieldVec l name) (SX.Open.fieldVec l' name) := by
  induction h with
  | nil => exact .ret rfl
  | cons h _ ih => exact seq_like (one_like h name) ih

theorem struct_like (ns : List (String × String)) {fs fs' : List SX.Open.SField} (h : Rowwise FieldLike fs fs') :
    SerLike (SX.Open.structSer ns fs) (SX.Open.structSer ns fs') := by
  have h1 : AttrLike (SX.Open.attrFields fs) (SX.Open.attrFields fs') := by
    induction h with
    | nil => exact .ret rfl
    | cons h _ ih =>
      cases h with
      | «attribute» name h => exact andThen_like h ih
      | element name h => exact ih
      | flatten name h => exact ih
      | text name => exact ih
  have h2 : AttrLike (SX.Open.flattenAttrs fs) (SX.Open.flattenAttrs fs') := by
    clear h1
    induction h with
    | nil => exact .ret rfl
    | cons h _ ih =>
      cases h with
      | «attribute» name h => exact ih
      | element name h => exact ih
      | flatten name h => exact andThen_like h.attrs ih
      | text name => exact ih
  have h3 : Like (SX.Open.flattens fs) (SX.Open.flattens fs') := by
    clear h1 h2
    induction h with
    | nil => exact .ret rfl
    | cons h _ ih =>
      cases h with
      | «attribute» name h => exact ih
      | element name h => exact ih
      | flatten name h => exact seq_like h.children ih
      | text name => exact ih
  have h4 : ∀ q q', Like q q' → Like (SX.Open.elemFields fs q) (SX.Open.elemFields fs' q') := by
    clear h1 h2 h3
    intro q q' hq
    induction h with
    | nil => exact hq
    | cons h _ ih =>
      cases h with
      | «attribute» name h => exact ih
      | element name h => exact seq_like h ih
      | flatten name h => exact ih
      | text name => exact ih
  exact ⟨andThen_like (namespaces_like ns) (andThen_like h1 h2), h4 _ _ h3⟩

end SX.Markup
