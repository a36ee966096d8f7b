import Verif.Proof.DeriveDe

/-
Structs: the state of the visitor after some attributes and children, and the main correspondence.
-/
namespace SX
open Spec

/-! ## Shares of the flattened fields -/

theorem past_append_types (env : Env) (es es' : List Nat) (ks : List Kid) :
    past env (es ++ es') ks = past env es' (past env es ks) := by
  induction es generalizing ks with
  | nil => rfl
  | cons e es ih => exact ih _

theorem takeWhile_append_all {α : Type} (p : α → Bool) (l l' : List α) (h : ∀ a ∈ l, p a = true) :
    (l ++ l').takeWhile p = l ++ l'.takeWhile p := by
  induction l with
  | nil => rfl
  | cons a l ih =>
    simp only [List.cons_append, List.takeWhile_cons, h a List.mem_cons_self, if_true]
    rw [ih fun b hb => h b (List.mem_cons_of_mem _ hb)]

theorem takeWhile_append_some {α : Type} (p : α → Bool) (l l' : List α) (h : ∃ a ∈ l, p a = false) :
    (l ++ l').takeWhile p = l.takeWhile p := by
  induction l with
  | nil => obtain ⟨a, h, -⟩ := h; simp at h
  | cons b l ih =>
    simp only [List.cons_append, List.takeWhile_cons]
    cases hb : p b with
    | false => simp
    | true =>
      simp only [if_true]
      rw [ih]
      obtain ⟨a, h1, h2⟩ := h
      rcases List.mem_cons.mp h1 with rfl | h1
      · simp [hb] at h2
      · exact ⟨a, h1, h2⟩

theorem past_prefix (env : Env) (es : List Nat) (ks more : List Kid) :
    ∃ t, past env es (ks ++ more) = past env es ks ++ t := by
  induction es generalizing ks more with
  | nil => exact ⟨more, rfl⟩
  | cons e es ih =>
    simp only [past]
    by_cases h : ∃ a ∈ ks, (variantOf (env.enm e) a.name).isNone = false
    · rw [takeWhile_append_some _ _ _ h]
      exact ⟨[], by simp⟩
    · have h' : ∀ a ∈ ks, (variantOf (env.enm e) a.name).isNone = true := by
        intro a ha
        cases hh : (variantOf (env.enm e) a.name).isNone with
        | true => rfl
        | false => exact absurd ⟨a, ha, hh⟩ h
      rw [takeWhile_append_all _ _ _ h']
      have : ks.takeWhile (fun k => (variantOf (env.enm e) k.name).isNone) = ks := by
        have := takeWhile_append_all _ ks [] h'
        simpa using this
      rw [this]
      exact ih _ _

theorem choices_nil_iff (d : EnumDef) (ks : List Kid) :
    choices d ks = [] ↔ ∀ k ∈ ks, (variantOf d k.name).isNone = true := by
  simp [choices, List.filterMap_eq_nil_iff, Option.isNone_iff_eq_none]

theorem past_one_all (env : Env) (e : Nat) (ks : List Kid) (h : choices (env.enm e) ks = []) : past env [e] ks = ks := by
  have := takeWhile_append_all _ ks [] ((choices_nil_iff _ _).mp h)
  simpa [past] using this

theorem past_one_stuck (env : Env) (e : Nat) (ks : List Kid) (k : Kid)
    (h : choices (env.enm e) ks ≠ [] ∨ variantOf (env.enm e) k.name ≠ none) :
    past env [e] (ks ++ [k]) = past env [e] ks := by
  simp only [past]
  by_cases hc : choices (env.enm e) ks = []
  · have hall := (choices_nil_iff _ _).mp hc
    rw [takeWhile_append_all _ _ _ hall]
    have hk := h.resolve_left (fun h => h hc)
    have h1 := takeWhile_append_all _ ks [] hall
    simp only [List.append_nil, List.takeWhile_nil] at h1
    rw [h1]
    simp [hk]
  · apply takeWhile_append_some
    rw [choices_nil_iff] at hc
    apply Classical.byContradiction
    intro hne
    apply hc
    intro a ha
    cases hh : (variantOf (env.enm e) a.name).isNone with
    | true => rfl
    | false => exact absurd ⟨a, ha, hh⟩ hne

theorem strangers_append (fields : List Field) (ks ks' : List Kid) :
    strangers fields (ks ++ ks') = strangers fields ks ++ strangers fields ks' := List.filter_append ..

theorem strangers_one (fields : List Field) (k : Kid) (h : declaredElem fields k.name = false) :
    strangers fields [k] = [k] := by simp [strangers, h]

theorem strangers_none (fields : List Field) (k : Kid) (h : declaredElem fields k.name = true) :
    strangers fields [k] = [] := by simp [strangers, h]

theorem flatTypes_append (l l' : List Field) : flatTypes (l ++ l') = flatTypes l ++ flatTypes l' := by
  induction l with
  | nil => rfl
  | cons f l ih =>
    simp only [List.cons_append, flatTypes]
    split
    · rw [ih]; rfl
    · exact ih

theorem declaredElem_ne {fields : List Field} {n : EName} (h : declaredElem fields n = false) {f : Field} (hf : f ∈ fields)
    {s : Slot} (hk : f.kind = .element s) : f.name.expanded ≠ n := by
  intro hn
  rw [Bool.eq_false_iff] at h
  apply h
  exact List.any_eq_true.mpr ⟨f, hf, by simp [hk, hn]⟩

theorem declaredElem_of {fields : List Field} {n : EName} {f : Field} (hf : f ∈ fields) {s : Slot}
    (hk : f.kind = .element s) (hn : f.name.expanded = n) : declaredElem fields n = true :=
  List.any_eq_true.mpr ⟨f, hf, by simp [hk, hn]⟩

theorem named_append (n : EName) (ks ks' : List Kid) : named n (ks ++ ks') = named n ks ++ named n ks' :=
  List.filter_append ..

theorem named_ne (n : EName) (k : Kid) (h : n ≠ k.name) : named n [k] = [] := by
  simp [named, Ne.symm h]

theorem named_eq (k : Kid) : named k.name [k] = [k] := by simp [named]

/-! ## State of the visitor -/

/-- The state of an element field after its children `ks`. -/
def SlotOk (s : Slot) (ks : List Kid) (st : FState) : Prop :=
  (ks = [] ∧ st = { present := false, cell := none }) ∨
  (ks ≠ [] ∧ ∃ v, slotValue s none ks = some v ∧ st = { present := true, cell := some v })

/-- The state of an attribute field after its attributes. -/
def AttrOk (o : Bool) (t : TextTy) (l : List XAttr) (st : FState) : Prop :=
  (l = [] ∧ st = { present := false, cell := none }) ∨
  (l ≠ [] ∧ ∃ v, attrValue o t none l = some v ∧ st = { present := true, cell := some v })

def FieldOk (env : Env) (all : List Field) (b : Body) (earlier : List Nat) (f : Field) (st : FState) : Prop :=
  match f.kind with
  | .element s => SlotOk s (named f.name.expanded b.kids) st
  | .attribute o t => AttrOk o t (attrsNamed f.name.expanded b.attrs) st
  | .flatten e => EnumOk (env.enm e) (past env earlier (strangers all b.kids)) st
  | .text _ => True

def FieldsOk (env : Env) (all : List Field) (b : Body) : List Nat → List Field → List FState → Prop
  | _, [], [] => True
  | earlier, f :: fs, st :: sts => FieldOk env all b earlier f st ∧ FieldsOk env all b (earlier ++ flatTypes [f]) fs sts
  | _, _, _ => False

theorem FieldsOk.get {env : Env} {all : List Field} {b : Body} {earlier : List Nat} {fields : List Field}
    {fs : List FState} (h : FieldsOk env all b earlier fields fs) {p : Nat} {f : Field} (hp : fields[p]? = some f) :
    ∃ st earlier', fs[p]? = some st ∧ FieldOk env all b earlier' f st := by
  induction fields generalizing fs p earlier with
  | nil => simp at hp
  | cons g gs ih =>
    cases fs with
    | nil => exact h.elim
    | cons st sts =>
      cases p with
      | zero => simp at hp; subst hp; exact ⟨st, earlier, rfl, h.1⟩
      | succ p => simpa using ih h.2 (by simpa using hp)

theorem FieldsOk.update {env : Env} {all : List Field} {b b' : Body} {earlier : List Nat} {fields : List Field}
    {fs : List FState} (h : FieldsOk env all b earlier fields fs) (p : Nat) (st' : FState)
    (hall : ∀ q f st e, fields[q]? = some f → q ≠ p → FieldOk env all b e f st → FieldOk env all b' e f st)
    (hp : ∀ f st e, fields[p]? = some f → fs[p]? = some st → FieldOk env all b e f st → FieldOk env all b' e f st') :
    FieldsOk env all b' earlier fields (fs.set p st') := by
  induction fields generalizing fs p earlier with
  | nil =>
    cases fs with
    | nil => trivial
    | cons st sts => exact h.elim
  | cons g gs ih =>
    cases fs with
    | nil => exact h.elim
    | cons st sts =>
      have hrest : ∀ p, FieldsOk env all b (earlier ++ flatTypes [g]) gs sts →
          (∀ q f st e, gs[q]? = some f → q ≠ p → FieldOk env all b e f st → FieldOk env all b' e f st) →
          (∀ f st e, gs[p]? = some f → sts[p]? = some st → FieldOk env all b e f st → FieldOk env all b' e f st') →
          FieldsOk env all b' (earlier ++ flatTypes [g]) gs (sts.set p st') := fun p h1 h2 h3 => ih h1 p h2 h3
      cases p with
      | zero =>
        refine ⟨hp g st earlier rfl rfl h.1, ?_⟩
        have hlen : ∀ (e : List Nat) (gs : List Field) (sts : List FState), FieldsOk env all b e gs sts →
            (∀ (q : Nat) f st e, gs[q]? = some f → FieldOk env all b e f st → FieldOk env all b' e f st) →
            FieldsOk env all b' e gs sts := by
          intro e gs
          induction gs generalizing e with
          | nil => intro sts h _; cases sts <;> exact h
          | cons g gs ih =>
            intro sts h hq
            cases sts with
            | nil => exact h.elim
            | cons st sts =>
              exact ⟨hq 0 g st e rfl h.1, ih _ _ h.2 fun q f st e hf => hq (q + 1) f st e (by simpa using hf)⟩
        exact hlen _ _ _ h.2 fun q f st e hf => hall (q + 1) f st e (by simpa using hf) (by omega)
      | succ p =>
        refine ⟨hall 0 g st earlier rfl (by omega) h.1, ?_⟩
        exact hrest p h.2 (fun q f st e hf hq => hall (q + 1) f st e (by simpa using hf) (by omega))
          (fun f st e hf hs => hp f st e (by simpa using hf) (by simpa using hs))

theorem FieldsOk.imp {env : Env} {all : List Field} {b b' : Body} {earlier : List Nat} {fields : List Field}
    {fs : List FState} (h : FieldsOk env all b earlier fields fs)
    (hall : ∀ f ∈ fields, ∀ st e, FieldOk env all b e f st → FieldOk env all b' e f st) :
    FieldsOk env all b' earlier fields fs := by
  induction fields generalizing fs earlier with
  | nil => cases fs <;> exact h
  | cons g gs ih =>
    cases fs with
    | nil => exact h.elim
    | cons st sts =>
      exact ⟨hall g List.mem_cons_self _ _ h.1, ih h.2 fun f hf => hall f (List.mem_cons_of_mem _ hf)⟩

/-- A child that the flattened fields up to here let nothing of through. -/
theorem fieldsOk_stuck {env : Env} {all : List Field} {b : Body} {k : Kid} {earlier : List Nat} {fields : List Field}
    {fs : List FState} (hsub : ∀ f ∈ fields, f ∈ all) (hk : declaredElem all k.name = false)
    (hp : past env earlier (strangers all (b.kids ++ [k])) = past env earlier (strangers all b.kids))
    (h : FieldsOk env all b earlier fields fs) :
    FieldsOk env all { b with kids := b.kids ++ [k] } earlier fields fs := by
  induction fields generalizing fs earlier with
  | nil => cases fs <;> exact h
  | cons g gs ih =>
    cases fs with
    | nil => exact h.elim
    | cons st sts =>
      refine ⟨?_, ih (fun f hf => hsub f (List.mem_cons_of_mem _ hf)) ?_ h.2⟩
      · have h1 := h.1
        unfold FieldOk at h1 ⊢
        split
        · rename_i s hkind
          simp only [hkind] at h1
          rw [named_append, named_ne _ _ (declaredElem_ne hk (hsub g List.mem_cons_self) hkind), List.append_nil]
          exact h1
        · rename_i o t hkind
          simpa only [hkind] using h1
        · rename_i e hkind
          simp only [hkind] at h1
          simp only [hp]
          exact h1
        · trivial
      · rw [past_append_types, past_append_types, hp]

/-! ## What can be wrong with a struct's content -/

def structBad (env : Env) (all : List Field) (b : Body) (rel : List StackElem) (kind : ErrKind) : Prop :=
  ∃ pre f post, all = pre ++ f :: post ∧ fieldBad env all b (flatTypes pre) f rel kind

theorem fieldBad_mono (env : Env) (all : List Field) (b : Body) (earlier : List Nat) (f : Field) (more : List Kid)
    (rel : List StackElem) (kind : ErrKind) (h : fieldBad env all b earlier f rel kind) :
    fieldBad env all { b with kids := b.kids ++ more } earlier f rel kind := by
  unfold fieldBad at h ⊢
  split
  · rename_i s hk
    simp only [hk] at h
    simp only
    rw [named_append]
    exact slotBad_mono _ _ _ _ _ h
  · rename_i o t hk
    simpa only [hk] using h
  · rename_i e hk
    simp only [hk] at h
    simp only [strangers_append]
    obtain ⟨t, ht⟩ := past_prefix env earlier (strangers all b.kids) (strangers all more)
    rw [ht]
    exact enumBad_mono _ _ _ _ _ h
  · rename_i t hk
    simp only [hk] at h

theorem structBad_mono (env : Env) (all : List Field) (b : Body) (more : List Kid)
    (rel : List StackElem) (kind : ErrKind) (h : structBad env all b rel kind) :
    structBad env all { b with kids := b.kids ++ more } rel kind := by
  obtain ⟨pre, f, post, h1, h2⟩ := h
  exact ⟨pre, f, post, h1, fieldBad_mono _ _ _ _ _ _ _ _ h2⟩

/-- The outcome of giving a child to a struct's visitor; `r`: what is wrong with it. -/
def StructStep (env : Env) (path : List StackElem) (x : Elem) (i : Nat) (b : Body) (r : Option (List StackElem × ErrKind))
    (act : Action DState (Except Fault (DState × Except VErr Unit))) : Prop :=
  (∃ fs' stop, runAct (derivedVisitor env) path x act = .ok (.ok (.strct i fs', .ok ()), stop) ∧
    FieldsOk env (env.strct i).fields { b with kids := b.kids ++ [Elem.kid env x] } [] (env.strct i).fields fs' ∧ r = none) ∨
  (∃ v e stop, runAct (derivedVisitor env) path x act = .ok (.ok (v, .error e), stop) ∧
    Blames path x.pos (fun rel kind => structBad env (env.strct i).fields { b with kids := b.kids ++ [Elem.kid env x] } rel kind ∧
      r = some (rel, kind)) e stop)

theorem elemSlot_none {fields : List Field} {n : EName} (h : declaredElem fields n = false) : elemSlot fields n = none := by
  induction fields with
  | nil => rfl
  | cons f fs ih =>
    unfold elemSlot
    have h' : declaredElem fs n = false := by
      rw [Bool.eq_false_iff] at h ⊢
      intro hc
      exact h (by simp only [declaredElem, List.any_cons, Bool.or_eq_true] at hc ⊢; exact .inr hc)
    split
    · rename_i s hk
      rw [if_neg (declaredElem_ne h List.mem_cons_self hk)]
      exact ih h'
    · exact ih h'

theorem elemSlot_mem {fields : List Field} {n : EName} {s : Slot} (h : elemSlot fields n = some s) :
    ∃ (q : Nat) (g : Field), fields[q]? = some g ∧ g.kind = .element s ∧ g.name.expanded = n := by
  induction fields with
  | nil => simp [elemSlot] at h
  | cons f fs ih =>
    unfold elemSlot at h
    have next : elemSlot fs n = some s → ∃ (q : Nat) (g : Field), (f :: fs)[q]? = some g ∧ g.kind = .element s ∧ g.name.expanded = n := by
      intro h
      obtain ⟨q, g, h1, h2⟩ := ih h
      exact ⟨q + 1, g, by simpa using h1, h2⟩
    split at h
    · rename_i s' hk
      split at h
      · rename_i hn
        simp only [Option.some.injEq] at h
        exact ⟨0, f, rfl, by rw [hk, h], hn⟩
      · exact next h
    · exact next h

theorem declaredElem_elemSlot {fields : List Field} {n : EName} (h : declaredElem fields n = true) : ∃ s, elemSlot fields n = some s := by
  induction fields with
  | nil => simp [declaredElem] at h
  | cons f fs ih =>
    unfold elemSlot
    simp only [declaredElem, List.any_cons, Bool.or_eq_true] at h
    split
    · rename_i s hk
      split
      · exact ⟨_, rfl⟩
      · rename_i hn
        refine ih (h.resolve_left ?_)
        simp [hk, hn]
    · rename_i hk
      refine ih (h.resolve_left ?_)
      split
      · rename_i s hk'; exact absurd hk' (hk s)
      · simp

theorem elemSlot_some (env : Env) (hok : EnvOk env) {i p : Nat} {f : Field} {s : Slot}
    (hp : (env.strct i).fields[p]? = some f) (hk : f.kind = .element s) :
    elemSlot (env.strct i).fields f.name.expanded = some s := by
  obtain ⟨s', hs⟩ := declaredElem_elemSlot (declaredElem_of (List.mem_of_getElem? hp) hk rfl)
  obtain ⟨q, g, h1, h2, h3⟩ := elemSlot_mem hs
  have := hok.elems i q p g f s' s h1 hp h2 hk h3
  subst this
  rw [hp] at h1
  simp only [Option.some.injEq] at h1
  subst h1
  rw [hk] at h2
  simp only [Kind.element.injEq] at h2
  rw [hs, h2]

theorem attrType_none {fields : List Field} {n : EName}
    (h : ∀ f ∈ fields, ∀ o t, f.kind = .attribute o t → f.name.expanded ≠ n) : attrType fields n = none := by
  induction fields with
  | nil => rfl
  | cons f fs ih =>
    unfold attrType
    have h' := ih fun g hg => h g (List.mem_cons_of_mem _ hg)
    split
    · rename_i o t hk
      rw [if_neg (h f List.mem_cons_self o t hk)]
      exact h'
    · exact h'

theorem attrType_mem {fields : List Field} {n : EName} {t : TextTy} (h : attrType fields n = some t) :
    ∃ (q : Nat) (g : Field) (o : Bool), fields[q]? = some g ∧ g.kind = .attribute o t ∧ g.name.expanded = n := by
  induction fields with
  | nil => simp [attrType] at h
  | cons f fs ih =>
    unfold attrType at h
    have next : attrType fs n = some t →
        ∃ (q : Nat) (g : Field) (o : Bool), (f :: fs)[q]? = some g ∧ g.kind = .attribute o t ∧ g.name.expanded = n := by
      intro h
      obtain ⟨q, g, o, h1, h2⟩ := ih h
      exact ⟨q + 1, g, o, by simpa using h1, h2⟩
    split at h
    · rename_i o' t' hk
      split at h
      · rename_i hn
        simp only [Option.some.injEq] at h
        exact ⟨0, f, o', rfl, by rw [hk, h], hn⟩
      · exact next h
    · exact next h

theorem attrType_isSome {fields : List Field} {f : Field} (hf : f ∈ fields) {o : Bool} {t : TextTy}
    (hk : f.kind = .attribute o t) : ∃ t', attrType fields f.name.expanded = some t' := by
  induction fields with
  | nil => simp at hf
  | cons g fs ih =>
    unfold attrType
    rcases List.mem_cons.mp hf with rfl | hf
    · rw [hk]
      simp
    · split
      · split
        · exact ⟨_, rfl⟩
        · exact ih hf
      · exact ih hf

theorem attrType_some (env : Env) (hok : EnvOk env) {i p : Nat} {f : Field} {o : Bool} {t : TextTy}
    (hp : (env.strct i).fields[p]? = some f) (hk : f.kind = .attribute o t) :
    attrType (env.strct i).fields f.name.expanded = some t := by
  obtain ⟨t', hs⟩ := attrType_isSome (List.mem_of_getElem? hp) hk
  obtain ⟨q, g, o', h1, h2, h3⟩ := attrType_mem hs
  have := hok.attrs i q p g f o' t' o t h1 hp h2 hk h3
  subst this
  rw [hp] at h1
  simp only [Option.some.injEq] at h1
  subst h1
  rw [hk] at h2
  simp only [Kind.attribute.injEq] at h2
  rw [hs, h2.2]

theorem fieldsOk_append {env : Env} {all : List Field} {b : Body} (earlier : List Nat) (pre post : List Field)
    (preS postS : List FState) (h1 : FieldsOk env all b earlier pre preS)
    (h2 : FieldsOk env all b (earlier ++ flatTypes pre) post postS) :
    FieldsOk env all b earlier (pre ++ post) (preS ++ postS) := by
  induction pre generalizing earlier preS with
  | nil =>
    cases preS with
    | nil => simpa [flatTypes] using h2
    | cons _ _ => exact h1.elim
  | cons f pre ih =>
    cases preS with
    | nil => exact h1.elim
    | cons st preS =>
      refine ⟨h1.1, ih _ _ h1.2 ?_⟩
      rw [show f :: pre = [f] ++ pre from rfl, flatTypes_append, ← List.append_assoc] at h2
      exact h2

theorem fieldsOk_length {env : Env} {all : List Field} {b : Body} {earlier : List Nat} {fields : List Field}
    {fs : List FState} (h : FieldsOk env all b earlier fields fs) : fs.length = fields.length := by
  induction fields generalizing earlier fs with
  | nil =>
    cases fs with
    | nil => rfl
    | cons _ _ => exact h.elim
  | cons f fields ih =>
    cases fs with
    | nil => exact h.elim
    | cons st fs => simp [ih h.2]

theorem delegate_step (env : Env) (hok : EnvOk env) (path : List StackElem) (x : Elem) (hx : ChildOk env path x) (i : Nat)
    (b : Body) (hdecl : declaredElem (env.strct i).fields (Elem.kid env x).name = false)
    (pre post : List Field) (preS postS : List FState) (hf : (env.strct i).fields = pre ++ post)
    (hpre : FieldsOk env (env.strct i).fields { b with kids := b.kids ++ [Elem.kid env x] } [] pre preS)
    (hpost : FieldsOk env (env.strct i).fields b (flatTypes pre) post postS)
    (hpast : past env (flatTypes pre) (strangers (env.strct i).fields b.kids) = strangers (env.strct i).fields b.kids)
    (hpast' : past env (flatTypes pre) (strangers (env.strct i).fields (b.kids ++ [Elem.kid env x])) =
      strangers (env.strct i).fields b.kids ++ [Elem.kid env x]) :
    StructStep env path x i b (flatErr env (flatTypes post) (strangers (env.strct i).fields b.kids) (Elem.kid env x))
      (delegate env i (preS ++ postS) (Elem.kid env x).name (flattens post pre.length)) := by
  induction post generalizing pre preS postS with
  | nil =>
    cases postS with
    | cons _ _ => exact hpost.elim
    | nil =>
      left
      refine ⟨_, _, rfl, ?_, rfl⟩
      rw [List.append_nil] at hf ⊢
      rw [hf] at hpre ⊢
      exact hpre
  | cons f post ih =>
    cases postS with
    | nil => exact hpost.elim
    | cons st postS =>
      have hlen := fieldsOk_length hpre
      have hmem : f ∈ (env.strct i).fields := by rw [hf]; simp
      have next : past env (flatTypes (pre ++ [f])) (strangers (env.strct i).fields b.kids) =
            strangers (env.strct i).fields b.kids →
          past env (flatTypes (pre ++ [f])) (strangers (env.strct i).fields (b.kids ++ [Elem.kid env x])) =
            strangers (env.strct i).fields b.kids ++ [Elem.kid env x] →
          FieldOk env (env.strct i).fields { b with kids := b.kids ++ [Elem.kid env x] } (flatTypes pre) f st →
          StructStep env path x i b (flatErr env (flatTypes post) (strangers (env.strct i).fields b.kids) (Elem.kid env x))
            (delegate env i (preS ++ st :: postS) (Elem.kid env x).name (flattens post (pre.length + 1))) := by
        intro h1 h2 h3
        have := ih (pre ++ [f]) (preS ++ [st]) postS (by rw [hf]; simp)
          (fieldsOk_append _ _ _ _ _ hpre ⟨h3, trivial⟩) (by rw [flatTypes_append]; exact hpost.2) h1 h2
        simpa using this
      by_cases hflat : ∃ e, f.kind = .flatten e
      · obtain ⟨e, hk⟩ := hflat
        have hft : flatTypes [f] = [e] := by simp [flatTypes, hk]
        have hget : (preS ++ st :: postS)[pre.length]? = some st := by
          rw [← hlen]; simp
        have hset : ∀ st', (preS ++ st :: postS).set pre.length st' = preS ++ st' :: postS := by
          intro st'; rw [← hlen]; simp
        have hft' : flatTypes (f :: post) = e :: flatTypes post := by simp [flatTypes, hk]
        simp only [flattens, hk, delegate, hget, hft', flatErr]
        have hen := hpost.1
        simp only [FieldOk, hk, hpast] at hen
        rcases enumElement_step env hok path x hx e _ st hen with ⟨h1, h2, h3⟩ | ⟨h1, act, h3, h4⟩
        · rw [h3, if_pos ⟨h1, h2⟩]
          refine next ?_ ?_ ?_
          · rw [flatTypes_append, past_append_types, hpast, hft, past_one_all _ _ _ h1]
          · rw [flatTypes_append, past_append_types, hpast', hft, past_one_all]
            rw [choices_append, h1, choices_none _ _ h2]; rfl
          · simp only [FieldOk, hk, hpast']
            exact hen.skip h2
        · rw [h3, if_neg (fun hc => h1.elim (fun h => h hc.1) (fun h => h hc.2))]
          rcases h4 with ⟨st', stop, h5, h6, h7⟩ | ⟨st', err, stop, h5, h6⟩
          · left
            refine ⟨_, stop, runAct_map_ok h5 _, ?_, h7⟩
            rw [hset]
            have hres : FieldsOk env (env.strct i).fields { b with kids := b.kids ++ [Elem.kid env x] } [] (pre ++ f :: post)
                (preS ++ st' :: postS) := by
              refine fieldsOk_append _ _ _ _ _ hpre ⟨?_, ?_⟩
              · simp only [FieldOk, hk, List.nil_append]
                rw [hpast']
                exact h6
              · refine fieldsOk_stuck ?_ hdecl ?_ hpost.2
                · intro g hg; rw [hf]; simp [hg]
                · rw [List.nil_append, past_append_types, past_append_types, hpast', hpast, hft]
                  exact past_one_stuck _ _ _ _ h1
            rw [← hf] at hres
            exact hres
          · right
            refine ⟨_, err, stop, runAct_map_ok h5 _, h6.mono ?_⟩
            intro rel kind hb
            refine ⟨⟨pre, f, post, hf, ?_⟩, hb.2⟩
            simp only [fieldBad, hk, hpast']
            exact hb.1
      · have hft : flatTypes [f] = [] := by
          simp only [flatTypes]
          split
          · rename_i e hk; exact absurd ⟨e, hk⟩ hflat
          · rfl
        have hfl : flattens (f :: post) pre.length = flattens post (pre.length + 1) := by
          simp only [flattens]
          split
          · rename_i e hk; exact absurd ⟨e, hk⟩ hflat
          · rfl
        have hft' : flatTypes (f :: post) = flatTypes post := by
          rw [show f :: post = [f] ++ post from rfl, flatTypes_append, hft]; rfl
        rw [hfl, hft']
        refine next ?_ ?_ ?_
        · rw [flatTypes_append, hft, List.append_nil, hpast]
        · rw [flatTypes_append, hft, List.append_nil, hpast']
        · have h1 := hpost.1
          unfold FieldOk at h1 ⊢
          split
          · rename_i s hkind
            simp only [hkind] at h1
            rw [named_append, named_ne _ _ (declaredElem_ne hdecl hmem hkind), List.append_nil]
            exact h1
          · rename_i o t hkind
            simpa only [hkind] using h1
          · rename_i e hk; exact absurd ⟨e, hk⟩ hflat
          · trivial

theorem structElement_step (env : Env) (hok : EnvOk env) (path : List StackElem) (x : Elem) (hx : ChildOk env path x) (i : Nat)
    (b : Body) (fs : List FState) (h : FieldsOk env (env.strct i).fields b [] (env.strct i).fields fs) :
    StructStep env path x i b (structErr env (env.strct i).fields b.kids (Elem.kid env x))
      (structElement env i fs (Elem.kid env x).name) := by
  unfold structElement
  rcases lookup_elem (env.strct i).fields (Elem.kid env x).name with ⟨p, f, s, h1, h2, h3, h4⟩ | ⟨h1, h2⟩
  · simp only [h1]
    have hmem := List.mem_of_getElem? h2
    have hdecl : declaredElem (env.strct i).fields (Elem.kid env x).name = true := declaredElem_of hmem h3 h4
    obtain ⟨st, e0, hst, hfo⟩ := h.get h2
    have hupd : ∀ v, slotValue s none (named f.name.expanded b.kids ++ [Elem.kid env x]) = some v →
        FieldsOk env (env.strct i).fields { b with kids := b.kids ++ [Elem.kid env x] } [] (env.strct i).fields
          (fs.set p ⟨true, some v⟩) := by
      intro v hv
      refine h.update p _ ?_ ?_
      · intro q g st e hg hq hgo
        unfold FieldOk at hgo ⊢
        split
        · rename_i s' hk
          simp only [hk] at hgo
          have hne : g.name.expanded ≠ (Elem.kid env x).name := by
            intro heq
            exact hq (hok.elems i q p g f s' s hg h2 hk h3 (heq.trans h4.symm))
          rw [named_append, named_ne _ _ hne, List.append_nil]
          exact hgo
        · rename_i o t hk
          simpa only [hk] using hgo
        · rename_i e' hk
          simp only [hk] at hgo
          rw [strangers_append, strangers_none _ _ hdecl, List.append_nil]
          exact hgo
        · trivial
      · intro g st e hg _ _
        rw [h2] at hg
        simp only [Option.some.injEq] at hg
        subst hg
        simp only [FieldOk, h3]
        right
        rw [named_append, h4, named_eq, ← h4]
        exact ⟨by simp, v, hv, rfl⟩
    have herr : structErr env (env.strct i).fields b.kids (Elem.kid env x) =
        slotErr s (named f.name.expanded b.kids) (Elem.kid env x) := by
      unfold structErr
      rw [← h4, elemSlot_some env hok h2 h3]
    have hbad : ∀ rel kind, slotBad s (named f.name.expanded b.kids ++ [Elem.kid env x]) rel kind ∧
          slotErr s (named f.name.expanded b.kids) (Elem.kid env x) = some (rel, kind) →
        structBad env (env.strct i).fields { b with kids := b.kids ++ [Elem.kid env x] } rel kind ∧
          slotErr s (named f.name.expanded b.kids) (Elem.kid env x) = some (rel, kind) := by
      rintro rel kind ⟨hb, hb'⟩
      refine ⟨?_, hb'⟩
      obtain ⟨hlt, hge⟩ := List.getElem?_eq_some_iff.mp h2
      refine ⟨(env.strct i).fields.take p, f, (env.strct i).fields.drop (p + 1), ?_, ?_⟩
      · rw [← hge]
        simp
      · simp only [fieldBad, h3]
        rw [named_append, h4, named_eq, ← h4]
        exact hb
    simp only [FieldOk, h3] at hfo
    cases f with | mk name kind default =>
    simp only at h3
    subst h3
    rw [herr]
    simp only [h2, hst]
    rcases hfo with ⟨h5, rfl⟩ | ⟨h5, c, h6, rfl⟩
    · simp only [Bool.false_eq_true, if_false]
      rw [h5] at hupd hbad ⊢
      rcases slotInit_step env path x hx s with ⟨v, stop, h7, h8, h9⟩ | ⟨e, stop, h7, h8⟩
      · exact .inl ⟨_, stop, runAct_map_ok h7 _, hupd v h8, h9⟩
      · exact .inr ⟨_, e, stop, runAct_map_ok h7 _, h8.mono hbad⟩
    · simp only [if_true]
      rcases slotUpdate_step env path x hx s _ h5 c h6 with ⟨v, stop, h7, h8, h9⟩ | ⟨e, stop, h7, h8⟩
      · exact .inl ⟨_, stop, runAct_map_ok h7 _, hupd v h8, h9⟩
      · exact .inr ⟨_, e, stop, runAct_map_ok h7 _, h8.mono hbad⟩
  · simp only [h1]
    have := delegate_step env hok path x hx i b h2 [] (env.strct i).fields [] fs rfl trivial h rfl
      (by rw [strangers_append, strangers_one _ _ h2]; rfl)
    rw [show structErr env (env.strct i).fields b.kids (Elem.kid env x) =
      flatErr env (flatTypes (env.strct i).fields) (strangers (env.strct i).fields b.kids) (Elem.kid env x) by
        unfold structErr; rw [elemSlot_none h2]]
    simpa using this

theorem enumVisitor_step (env : Env) (hok : EnvOk env) (path : List StackElem) (x : Elem) (hx : ChildOk env path x) (i : Nat)
    (ks : List Kid) (st : FState) (h : EnumOk (env.enm i) ks st) (info : ElemInfo) (hi : info.name = x.name) :
    (∃ st' stop, runAct (derivedVisitor env) path x ((derivedVisitor env).onElem (.enm i st) info) =
        .ok (.ok (.enm i st', .ok ()), stop) ∧ EnumOk (env.enm i) (ks ++ [Elem.kid env x]) st' ∧
        enumErr (env.enm i) ks (Elem.kid env x) = none) ∨
    (∃ v e stop, runAct (derivedVisitor env) path x ((derivedVisitor env).onElem (.enm i st) info) =
        .ok (.ok (v, .error e), stop) ∧
        Blames path x.pos (fun rel kind => enumBad (env.enm i) (ks ++ [Elem.kid env x]) rel kind ∧
          enumErr (env.enm i) ks (Elem.kid env x) = some (rel, kind)) e stop) := by
  have hn : info.name.expanded = (Elem.kid env x).name := by rw [hi]; rfl
  simp only [derivedVisitor, hn]
  rcases enumElement_step env hok path x hx i ks st h with ⟨h1, h2, h3⟩ | ⟨h1, act, h3, h4⟩
  · rw [h3]
    exact .inl ⟨_, _, rfl, h.skip h2, by simp [enumErr, h2]⟩
  · rw [h3]
    rcases h4 with ⟨st', stop, h5, h6⟩ | ⟨st', err, stop, h5, h6⟩
    · exact .inl ⟨_, stop, runAct_map_ok h5 _, h6⟩
    · exact .inr ⟨_, err, stop, runAct_map_ok h5 _, h6⟩

/-! ## Attributes -/

theorem attrsNamed_append (n : EName) (l l' : List XAttr) : attrsNamed n (l ++ l') = attrsNamed n l ++ attrsNamed n l' :=
  List.filter_append ..

theorem structAttribute_step (env : Env) (hok : EnvOk env) (i : Nat) (b : Body) (fs : List FState) (a : XAttr)
    (h : FieldsOk env (env.strct i).fields b [] (env.strct i).fields fs) :
    (∃ fs', structAttribute env i fs a.name.expanded a.value = .ok (.strct i fs', .ok ()) ∧
      FieldsOk env (env.strct i).fields { b with attrs := b.attrs ++ [a] } [] (env.strct i).fields fs' ∧
      attrErr (env.strct i).fields b.attrs a = none) ∨
    (∃ v d, structAttribute env i fs a.name.expanded a.value = .ok (v, .error (.wrap d)) ∧
      attrErr (env.strct i).fields b.attrs a = some (.deserializer d) ∧
      ∀ more, structBad env (env.strct i).fields { b with attrs := b.attrs ++ a :: more } [] (.deserializer d)) := by
  unfold structAttribute
  rcases lookup_attr (env.strct i).fields a.name.expanded with ⟨p, f, o, t, h1, h2, h3, h4⟩ | ⟨h1, h2⟩
  · simp only [h1]
    obtain ⟨st, e0, hst, hfo⟩ := h.get h2
    have hty := attrType_some env hok h2 h3
    rw [h4] at hty
    have hupd : ∀ v, attrValue o t none (attrsNamed f.name.expanded b.attrs ++ [a]) = some v →
        FieldsOk env (env.strct i).fields { b with attrs := b.attrs ++ [a] } [] (env.strct i).fields
          (fs.set p ⟨true, some v⟩) := by
      intro v hv
      refine h.update p _ ?_ ?_
      · intro q g st e hg hq hgo
        unfold FieldOk at hgo ⊢
        split
        · rename_i s' hk
          simpa only [hk] using hgo
        · rename_i o' t' hk
          simp only [hk] at hgo
          have hne : g.name.expanded ≠ a.name.expanded := by
            intro heq
            exact hq (hok.attrs i q p g f o' t' o t hg h2 hk h3 (heq.trans h4.symm))
          rw [attrsNamed_append, show attrsNamed g.name.expanded [a] = [] by simp [attrsNamed, Ne.symm hne], List.append_nil]
          exact hgo
        · rename_i e' hk
          simpa only [hk] using hgo
        · trivial
      · intro g st e hg _ _
        rw [h2] at hg
        simp only [Option.some.injEq] at hg
        subst hg
        simp only [FieldOk, h3]
        right
        rw [attrsNamed_append, show attrsNamed f.name.expanded [a] = [a] by simp [attrsNamed, h4]]
        exact ⟨by simp, v, hv, rfl⟩
    have hbad : ∀ more d, attrBad t f.name.expanded
          (attrsNamed f.name.expanded b.attrs ++ a :: attrsNamed f.name.expanded more) [] (.deserializer d) →
        structBad env (env.strct i).fields { b with attrs := b.attrs ++ a :: more } [] (.deserializer d) := by
      intro more d hb
      obtain ⟨hlt, hge⟩ := List.getElem?_eq_some_iff.mp h2
      refine ⟨(env.strct i).fields.take p, f, (env.strct i).fields.drop (p + 1), ?_, ?_⟩
      · rw [← hge]
        simp
      · simp only [fieldBad, h3]
        rw [attrsNamed_append, show a :: more = [a] ++ more from rfl, attrsNamed_append,
          show attrsNamed f.name.expanded [a] = [a] by simp [attrsNamed, h4]]
        exact hb
    simp only [FieldOk, h3] at hfo
    cases f with | mk name kind default =>
    simp only at h3
    subst h3
    simp only [h2, hst]
    rcases hfo with ⟨h5, rfl⟩ | ⟨h5, c, h6, rfl⟩
    · simp only [Bool.false_eq_true, if_false, attrInit]
      simp only [h5] at hupd hbad
      cases hp : t.parse a.value with
      | ok v =>
        left
        refine ⟨_, rfl, hupd _ ?_, ?_⟩
        · simp [attrValue, hp]
        · simp only at h4 h5
          rw [h4] at h5
          simp only [attrErr, hty, h5, if_true, hp]
      | err e =>
        right
        refine ⟨_, _, rfl, by simp only at h4 h5; rw [h4] at h5; simp only [attrErr, hty, h5, if_true, hp], fun more => hbad more _ ⟨rfl, .inl ⟨a, by simp, e, hp, rfl⟩⟩⟩
      | fault f => exact absurd hp (parse_no_fault t a.value f)
    · simp only [if_true]
      right
      simp only at h4
      refine ⟨_, _, rfl, by simp only at h5; rw [h4] at h5; simp only [attrErr, hty, h5, if_false], fun more => hbad more _ ⟨rfl, .inr ⟨?_, by rw [← h4]⟩⟩⟩
      have : 0 < (attrsNamed name.expanded b.attrs).length := List.length_pos_iff.mpr h5
      simp only [List.length_append, List.length_cons]
      omega
  · simp only [h1]
    left
    refine ⟨_, rfl, h.imp ?_, by simp only [attrErr, attrType_none h2]⟩
    intro f hf st e hfo
    unfold FieldOk at hfo ⊢
    split
    · rename_i s' hk
      simpa only [hk] using hfo
    · rename_i o' t' hk
      simp only [hk] at hfo
      rw [attrsNamed_append, show attrsNamed f.name.expanded [a] = [] by simp [attrsNamed, Ne.symm (h2 f hf o' t' hk)],
        List.append_nil]
      exact hfo
    · rename_i e' hk
      simpa only [hk] using hfo
    · trivial

theorem attributes_struct (env : Env) (hok : EnvOk env) (here : List StackElem) (pos : Pos) (i : Nat) (b : Body)
    (fs : List FState) (l : List XAttr) (h : FieldsOk env (env.strct i).fields b [] (env.strct i).fields fs) :
    (∃ fs', attributes (derivedVisitor env) here pos l (.strct i fs) = .ok (.strct i fs', .ok ()) ∧
      FieldsOk env (env.strct i).fields { b with attrs := b.attrs ++ l } [] (env.strct i).fields fs' ∧
      scan (attrErr (env.strct i).fields) b.attrs l = none) ∨
    (∃ v E, attributes (derivedVisitor env) here pos l (.strct i fs) = .ok (v, .error E) ∧ E.stack = here ∧ E.pos = pos ∧
      scan (attrErr (env.strct i).fields) b.attrs l = some E.kind ∧
      structBad env (env.strct i).fields { b with attrs := b.attrs ++ l } [] E.kind) := by
  induction l generalizing b fs with
  | nil => exact .inl ⟨fs, rfl, by simpa using h, rfl⟩
  | cons a l ih =>
    unfold attributes scan
    have : (derivedVisitor env).onAttr (.strct i fs) a.name.expanded a.value =
      structAttribute env i fs a.name.expanded a.value := rfl
    rw [this]
    rcases structAttribute_step env hok i b fs a h with ⟨fs', h1, h2, h3⟩ | ⟨v, d, h1, h3, h2⟩
    · rw [h1, h3]
      have := ih _ _ h2
      simpa using this
    · rw [h1, h3]
      exact .inr ⟨_, _, rfl, rfl, rfl, rfl, h2 l⟩

theorem attributes_enum (env : Env) (here : List StackElem) (pos : Pos) (i : Nat) (st : FState) (l : List XAttr) :
    attributes (derivedVisitor env) here pos l (.enm i st) = .ok (.enm i st, .ok ()) := by
  induction l with
  | nil => rfl
  | cons a l ih => exact ih

/-! ## The end of an element -/

theorem slotValue_absent (s : Slot) (a : Option Val) (ks : List Kid) (h : ks ≠ []) : slotValue s a ks = slotValue s none ks := by
  cases ks with
  | nil => exact absurd rfl h
  | cons k ks => rfl

theorem attrValue_absent (o : Bool) (t : TextTy) (a : Option Val) (l : List XAttr) (h : l ≠ []) :
    attrValue o t a l = attrValue o t none l := by
  rcases l with _ | ⟨x, _ | ⟨y, l⟩⟩
  · exact absurd rfl h
  · rfl
  · rfl

theorem finalizeField_step (env : Env) (all : List Field) (b : Body) (earlier : List Nat) (f : Field) (st : FState)
    (hT : ∀ t, f.kind ≠ .text t) (h : FieldOk env all b earlier f st) :
    (∃ st' v, finalizeField env f st = .ok (.ok st') ∧ st'.cell = some v ∧ fieldValue env all b earlier f = some v) ∨
    (∃ d, finalizeField env f st = .ok (.error (.wrap d)) ∧ fieldMissing env all b earlier f [] (.deserializer d)) := by
  cases f with | mk name kind default =>
  unfold FieldOk at h
  unfold finalizeField fieldValue fieldMissing
  cases kind with
  | element s =>
    simp only at h ⊢
    rcases h with ⟨h1, rfl⟩ | ⟨h1, v, h2, rfl⟩
    · simp only [Bool.false_eq_true, if_false, h1, slotValue, slotMissing, slotAbsent]
      cases default with
      | some d => exact .inl ⟨_, _, rfl, rfl, rfl⟩
      | none =>
        cases s.card with
        | one => exact .inr ⟨_, rfl, by simp⟩
        | opt => exact .inl ⟨_, _, rfl, rfl, rfl⟩
        | many => exact .inl ⟨_, _, rfl, rfl, rfl⟩
    · simp only [if_true]
      exact .inl ⟨_, v, rfl, rfl, by rw [slotValue_absent _ _ _ h1, h2]⟩
  | «attribute» o t =>
    simp only at h ⊢
    rcases h with ⟨h1, rfl⟩ | ⟨h1, v, h2, rfl⟩
    · simp only [Bool.false_eq_true, if_false, h1, attrValue, attrAbsent]
      cases default with
      | some d => exact .inl ⟨_, _, rfl, rfl, rfl⟩
      | none =>
        cases o with
        | false => exact .inr ⟨_, rfl, by simp⟩
        | true => exact .inl ⟨_, _, rfl, rfl, rfl⟩
    · simp only [if_true]
      exact .inl ⟨_, v, rfl, rfl, by rw [attrValue_absent _ _ _ _ h1, h2]⟩
  | flatten e =>
    simp only at h ⊢
    rcases h with ⟨h1, rfl⟩ | ⟨h1, v, h2, rfl⟩
    · simp only [Bool.false_eq_true, if_false]
      exact .inr ⟨_, rfl, h1, rfl, rfl⟩
    · simp only [if_true]
      exact .inl ⟨_, v, rfl, rfl, h2⟩
  | text t => exact absurd rfl (hT t)

theorem gap_cons (env : Env) (all : List Field) (b : Body) (earlier : List Nat) (f : Field) (fs : List Field) :
    ((∀ kind, ¬ fieldMissing env all b earlier f [] kind) →
      gap env all b earlier (f :: fs) = gap env all b (earlier ++ flatTypes [f]) fs) ∧
    (∀ kind, fieldMissing env all b earlier f [] kind → gap env all b earlier (f :: fs) = some kind) := by
  rw [gap]
  unfold fieldMissing
  cases f with | mk name kind default =>
  cases kind with
  | element s =>
    refine ⟨fun h => ?_, ?_⟩
    · simp only at h ⊢
      rw [if_neg]
      rintro ⟨h1, h2, h3⟩
      exact h _ ⟨h1, by simpa using h2, h3, trivial, rfl⟩
    · rintro kind ⟨h1, h2, h3, -, rfl⟩
      simp only at h1 h2 h3 ⊢
      rw [if_pos ⟨h1, by simp [h2], h3⟩]
  | «attribute» o t =>
    refine ⟨fun h => ?_, ?_⟩
    · simp only at h ⊢
      rw [if_neg]
      rintro ⟨h1, h2, h3⟩
      exact h _ ⟨h1, by simpa using h2, h3, trivial, rfl⟩
    · rintro kind ⟨h1, h2, h3, -, rfl⟩
      simp only at h1 h2 h3 ⊢
      rw [if_pos ⟨h1, by simp [h2], h3⟩]
  | flatten e =>
    refine ⟨fun h => ?_, ?_⟩
    · simp only at h ⊢
      rw [if_neg]
      intro h1
      exact h _ ⟨h1, rfl, rfl⟩
    · rintro kind ⟨h1, -, rfl⟩
      simp only at h1 ⊢
      rw [if_pos h1]
  | text t => exact ⟨fun _ => rfl, fun _ h => h.elim⟩

theorem fieldMissing_none (env : Env) (all : List Field) (b : Body) (earlier : List Nat) (f : Field) (v : Val)
    (h : fieldValue env all b earlier f = some v) (kind : ErrKind) : ¬ fieldMissing env all b earlier f [] kind := by
  cases f with | mk name kind' default =>
  unfold fieldValue at h
  unfold fieldMissing
  cases kind' with
  | element s =>
    rintro ⟨h1, h2, h3, -⟩
    simp only at h h1 h2 h3
    rw [h1, h2] at h
    simp [slotValue, slotAbsent, h3] at h
  | «attribute» o t =>
    rintro ⟨h1, h2, h3, -⟩
    simp only at h h1 h2 h3
    rw [h1, h2, h3] at h
    simp [attrValue, attrAbsent] at h
  | flatten e =>
    rintro ⟨h1, -⟩
    simp only at h h1
    unfold enumValue at h
    rw [h1] at h
    simp at h
  | text t => exact id

theorem finalizeFields_step (env : Env) (all : List Field) (b : Body) (pre fields : List Field) (fs : List FState)
    (hT : ∀ f ∈ fields, ∀ t, f.kind ≠ .text t) (hall : all = pre ++ fields)
    (h : FieldsOk env all b (flatTypes pre) fields fs) :
    (∃ vs, finalizeFields env fields fs = .ok (.ok vs) ∧ fieldsValue env all b (flatTypes pre) fields = some vs ∧
      gap env all b (flatTypes pre) fields = none) ∨
    (∃ d, finalizeFields env fields fs = .ok (.error (.wrap d)) ∧
      gap env all b (flatTypes pre) fields = some (.deserializer d) ∧ ∃ pre f post, all = pre ++ f :: post ∧
      fieldMissing env all b (flatTypes pre) f [] (.deserializer d)) := by
  induction fields generalizing fs pre with
  | nil =>
    cases fs with
    | nil => exact .inl ⟨[], rfl, rfl, rfl⟩
    | cons _ _ => exact h.elim
  | cons f fields ih =>
    cases fs with
    | nil => exact h.elim
    | cons st fs =>
      unfold finalizeFields fieldsValue
      rcases finalizeField_step env all b (flatTypes pre) f st (hT f List.mem_cons_self) h.1 with
        ⟨st', v, h1, h2, h3⟩ | ⟨d, h1, h2⟩
      all_goals have hg := gap_cons env all b (flatTypes pre) f fields
      · have h4 := h.2
        rw [← flatTypes_append] at h4
        rcases ih (pre ++ [f]) fs (fun g hg => hT g (List.mem_cons_of_mem _ hg)) (by rw [hall]; simp) h4 with
          ⟨vs, h5, h6, h7⟩ | ⟨d, h5, h7, h6⟩
        · left
          rw [h1, h5, h3, ← flatTypes_append, h6, hg.1 (fieldMissing_none _ _ _ _ _ v h3), ← flatTypes_append, h7]
          simp only [onOk, h2]
          exact ⟨_, rfl, rfl, trivial⟩
        · right
          rw [h1, h5, hg.1 (fieldMissing_none _ _ _ _ _ v h3), ← flatTypes_append, h7]
          exact ⟨d, rfl, rfl, h6⟩
      · right
        rw [h1, hg.2 _ h2]
        exact ⟨d, rfl, rfl, pre, f, fields, hall, h2⟩

/-! ## Main induction -/

def ContentOk (env : Env) (f : Forest) : Prop :=
  (∀ path i b fs, FieldsOk env (env.strct i).fields b [] (env.strct i).fields fs →
    (∃ fs', content (derivedVisitor env) path f (.strct i fs) = .ok (.strct i fs', .ok ()) ∧
      FieldsOk env (env.strct i).fields { b with kids := b.kids ++ kids env f } [] (env.strct i).fields fs' ∧
      scan (structErr env (env.strct i).fields) b.kids (kids env f) = none) ∨
    (∃ v E stop, content (derivedVisitor env) path f (.strct i fs) = .ok (v, .error (E, stop)) ∧
      ∃ rel, E.stack = path ++ rel ∧ E.stack.getLast?.map (·.pos) = some E.pos ∧
        scan (structErr env (env.strct i).fields) b.kids (kids env f) = some (rel, E.kind) ∧
        structBad env (env.strct i).fields { b with kids := b.kids ++ kids env f } rel E.kind)) ∧
  (∀ path i ks st, EnumOk (env.enm i) ks st →
    (∃ st', content (derivedVisitor env) path f (.enm i st) = .ok (.enm i st', .ok ()) ∧
      EnumOk (env.enm i) (ks ++ kids env f) st' ∧ scan (enumErr (env.enm i)) ks (kids env f) = none) ∨
    (∃ v E stop, content (derivedVisitor env) path f (.enm i st) = .ok (v, .error (E, stop)) ∧
      ∃ rel, E.stack = path ++ rel ∧ E.stack.getLast?.map (·.pos) = some E.pos ∧
        scan (enumErr (env.enm i)) ks (kids env f) = some (rel, E.kind) ∧ enumBad (env.enm i) (ks ++ kids env f) rel E.kind))

theorem firstElem_kids (env : Env) (f : Forest) :
    (f.firstElem = none ∧ kids env f = []) ∨ (∃ k ks, f.firstElem = some k.node ∧ kids env f = k :: ks) := by
  induction f with
  | nil => exact .inl ⟨rfl, rfl⟩
  | elem n a ns p ch ep rest _ _ => exact .inr ⟨_, _, rfl, rfl⟩
  | chars s c p rest ih => exact ih
  | misc m p rest ih => exact ih

theorem fieldsOk_new (env : Env) (all fields : List Field) (earlier : List Nat) :
    FieldsOk env all { attrs := [], kids := [], text := "" } earlier fields (fields.map fun _ => ⟨false, none⟩) := by
  induction fields generalizing earlier with
  | nil => trivial
  | cons f fields ih =>
    refine ⟨?_, ih _⟩
    unfold FieldOk
    split
    · exact .inl ⟨rfl, rfl⟩
    · exact .inl ⟨rfl, rfl⟩
    · refine .inl ⟨?_, rfl⟩
      have : ∀ es, past env es (strangers all []) = [] := by
        intro es
        induction es with
        | nil => rfl
        | cons e es ih => exact ih
      simp [this, choices]
    · trivial

theorem bodyErr_attrs {env : Env} {b : Body} {i : Nat} {kind : ErrKind}
    (h : scan (attrErr (env.strct i).fields) [] b.attrs = some kind) : bodyErr env b (.strct i) = some ⟨[], kind, false⟩ := by
  simp only [bodyErr, h]

theorem bodyErr_kids {env : Env} {b : Body} {i : Nat} {rel : List StackElem} {kind : ErrKind}
    (h : scan (attrErr (env.strct i).fields) [] b.attrs = none)
    (h' : scan (structErr env (env.strct i).fields) [] b.kids = some (rel, kind)) :
    bodyErr env b (.strct i) = some ⟨rel, kind, false⟩ := by
  simp only [bodyErr, h, h']

theorem bodyErr_gap {env : Env} {b : Body} {i : Nat} {r : Option ErrKind}
    (h : scan (attrErr (env.strct i).fields) [] b.attrs = none)
    (h' : scan (structErr env (env.strct i).fields) [] b.kids = none)
    (hg : gap env (env.strct i).fields b [] (env.strct i).fields = r) :
    bodyErr env b (.strct i) = r.map fun kind => ⟨[], kind, true⟩ := by
  simp only [bodyErr, h, h', hg]

theorem bodyErr_enm {env : Env} {b : Body} {i : Nat} (h : scan (enumErr (env.enm i)) [] b.kids = none) :
    bodyErr env b (.enm i) =
      if choices (env.enm i) b.kids = [] then some ⟨[], .deserializer (.cantBeEmpty (env.enm i).ident), true⟩ else none := by
  simp only [bodyErr, h]

theorem childOk_of_content (env : Env) (hok : EnvOk env) (path : List StackElem) (x : Elem)
    (h : ContentOk env x.children) : ChildOk env path x := by
  intro ty
  cases ty with
  | text t =>
    simp only [deserTy, runAct]
    rcases firstElem_kids env x.children with ⟨h1, h2⟩ | ⟨k, ks, h1, h2⟩
    · simp only [asText, h1]
      cases hp : t.parse x.children.text with
      | ok v =>
        left
        refine ⟨_, _, rfl, ?_, ?_⟩
        · simp only [Elem.kid, bodyValue, Elem.body, h2, hp]
        · simp only [Elem.kid, bodyErr, Elem.body, h2, hp]
      | err e =>
        right
        refine ⟨_, _, rfl, fun _ => rfl, ?_⟩
        refine ⟨[(Elem.kid env x).node], rfl, by simp, [], rfl, ?_, ?_⟩
        · exact .inl ⟨h2, rfl, e, hp, rfl⟩
        · simp only [Elem.kid, bodyErr, Elem.body, h2, hp, VErr.late]
      | fault f => exact absurd hp (parse_no_fault t _ f)
    · simp only [asText, h1]
      right
      refine ⟨_, _, rfl, by simp [VErr.late], ?_⟩
      refine ⟨[(Elem.kid env x).node, k.node], by simp [Elem.kid], by simp, [k.node], rfl, ?_, ?_⟩
      · exact .inr ⟨k, ks, h2, rfl, rfl⟩
      · simp only [Elem.kid, bodyErr, Elem.body, h2, VErr.late]
  | strct i =>
    simp only [deserTy, runAct, newStruct]
    rcases attributes_struct env hok (path ++ [{ name := x.name, pos := x.pos }]) x.pos i _ _ x.attrs
        (fieldsOk_new env (env.strct i).fields (env.strct i).fields []) with ⟨fs, h1, h2, hsa⟩ | ⟨v, E, h1, h2, hpos, hsa, h3⟩
    · rw [h1]
      simp only
      rcases h.1 (path ++ [{ name := x.name, pos := x.pos }]) i _ _ h2 with
        ⟨fs', h3, h4, hsk⟩ | ⟨v, E, stop, h3, rel, h4, hpos, hsk, h5⟩
      · rw [h3]
        simp only
        have hT : ∀ f ∈ (env.strct i).fields, ∀ t, f.kind ≠ .text t := fun f hf t => hok.noText i f t hf
        simp only [List.nil_append] at h4
        have h4' : FieldsOk env (env.strct i).fields (x.body env) [] (env.strct i).fields fs' := h4.imp fun f _ st e h => h
        rcases finalizeFields_step env _ _ [] _ _ hT rfl h4' with ⟨vs, h5, h6, hgap⟩ | ⟨d, h5, hgap, h6⟩
        · left
          simp only [finalize, h5]
          refine ⟨_, _, rfl, ?_, ?_⟩
          · simp only [Elem.kid, bodyValue, structValue]
            have h6' : fieldsValue env (env.strct i).fields (x.body env) [] (env.strct i).fields = some vs := h6
            rw [h6']
            rfl
          · exact bodyErr_gap hsa hsk hgap
        · right
          simp only [finalize, h5]
          refine ⟨_, _, rfl, fun _ => rfl, [(Elem.kid env x).node], rfl, by simp, [], rfl, ?_, ?_⟩
          · obtain ⟨pre, f, post, h7, h8⟩ := h6
            exact ⟨pre, f, post, h7, .inr h8⟩
          · exact bodyErr_gap hsa hsk hgap
      · rw [h3]
        right
        refine ⟨_, _, rfl, by simp [VErr.late], (Elem.kid env x).node :: rel, by rw [h4]; simp [Elem.kid], hpos, rel, rfl, ?_, ?_⟩
        · obtain ⟨pre, f, post, h6, h7⟩ := h5
          refine ⟨pre, f, post, h6, .inl ?_⟩
          simp only [List.nil_append] at h7
          exact h7
        · exact bodyErr_kids hsa hsk
    · rw [h1]
      right
      refine ⟨_, _, rfl, by simp [VErr.late], [(Elem.kid env x).node], by rw [h2]; rfl, by rw [h2, hpos]; simp, [], rfl, ?_, ?_⟩
      · obtain ⟨pre, f, post, h6, h7⟩ := h3
        refine ⟨pre, f, post, h6, .inl ?_⟩
        have := fieldBad_mono _ _ _ _ _ (kids env x.children) _ _ h7
        simp only [List.nil_append] at this
        exact this
      · exact bodyErr_attrs hsa
  | enm i =>
    simp only [deserTy, runAct, newEnum, attributes_enum]
    rcases h.2 (path ++ [{ name := x.name, pos := x.pos }]) i [] ⟨false, none⟩ (.inl ⟨rfl, rfl⟩) with
      ⟨st, h3, h4, hsk⟩ | ⟨v, E, stop, h3, rel, h4, hpos, hsk, h5⟩
    · rw [h3]
      simp only [finalize]
      rcases h4 with ⟨h5, rfl⟩ | ⟨h5, v, h6, rfl⟩
      · right
        simp only [Bool.false_eq_true, if_false]
        refine ⟨_, _, rfl, fun _ => rfl, [(Elem.kid env x).node], rfl, by simp, [], rfl, .inr ⟨h5, rfl, rfl⟩, ?_⟩
        have := bodyErr_enm (env := env) (b := x.body env) hsk
        rw [if_pos (by simpa [Elem.body] using h5)] at this
        exact this
      · left
        simp only [if_true]
        refine ⟨_, _, rfl, h6, ?_⟩
        have := bodyErr_enm (env := env) (b := x.body env) hsk
        rw [if_neg (by simpa [Elem.body] using h5)] at this
        exact this
    · rw [h3]
      right
      refine ⟨_, _, rfl, by simp [VErr.late], (Elem.kid env x).node :: rel, by rw [h4]; simp [Elem.kid], hpos, rel, rfl, .inl h5, ?_⟩
      simp only [Elem.kid, bodyErr, Elem.body, hsk, VErr.late]

theorem contentOk_over (env : Env) (hok : EnvOk env) (x : Elem) (rest : Forest) (hc : ContentOk env x.children)
    (hr : ContentOk env rest) : ContentOk env (Elem.over x rest) := by
  refine ⟨?_, ?_⟩
  · intro path i b fs h
    have hx := childOk_of_content env hok path x hc
    rw [content_over, kids_over]
    have hstep := structElement_step env hok path x hx i b fs h
    have : (derivedVisitor env).onElem (.strct i fs) { name := x.name, ns := x.ns, depth := path.length + 1 } =
      structElement env i fs (Elem.kid env x).name := rfl
    rw [this]
    unfold scan
    rcases hstep with ⟨fs', stop, h1, h2, h3⟩ | ⟨v, e, stop, h1, h2⟩
    · rw [h1, h3]
      have := hr.1 path i _ fs' h2
      simpa using this
    · rw [h1]
      right
      have hb : ∀ rel kind, structBad env (env.strct i).fields { b with kids := b.kids ++ [Elem.kid env x] } rel kind →
          structBad env (env.strct i).fields { b with kids := b.kids ++ Elem.kid env x :: kids env rest } rel kind := by
        intro rel kind hb
        have := structBad_mono _ _ _ (kids env rest) _ _ hb
        simpa using this
      cases e with
      | propagate E =>
        obtain ⟨rel, h3, h4, h5, h6⟩ := h2
        rw [h6]
        exact ⟨_, _, _, rfl, rel, h3, h4, rfl, hb _ _ h5⟩
      | wrap d =>
        obtain ⟨rel, h3, h4, h5, h6⟩ := h2
        rw [h6]
        exact ⟨_, _, _, rfl, rel, h3, h4, rfl, hb _ _ h5⟩
  · intro path i ks st h
    have hx := childOk_of_content env hok path x hc
    rw [content_over, kids_over]
    unfold scan
    rcases enumVisitor_step env hok path x hx i ks st h { name := x.name, ns := x.ns, depth := path.length + 1 } rfl with
      ⟨st', stop, h1, h2, h3⟩ | ⟨v, e, stop, h1, h2⟩
    · rw [h1, h3]
      have := hr.2 path i _ st' h2
      simpa using this
    · rw [h1]
      right
      have hb : ∀ rel kind, enumBad (env.enm i) (ks ++ [Elem.kid env x]) rel kind →
          enumBad (env.enm i) (ks ++ Elem.kid env x :: kids env rest) rel kind := by
        intro rel kind hb
        have := enumBad_mono _ _ (kids env rest) _ _ hb
        simpa using this
      cases e with
      | propagate E =>
        obtain ⟨rel, h3, h4, h5, h6⟩ := h2
        rw [h6]
        exact ⟨_, _, _, rfl, rel, h3, h4, rfl, hb _ _ h5⟩
      | wrap d =>
        obtain ⟨rel, h3, h4, h5, h6⟩ := h2
        rw [h6]
        exact ⟨_, _, _, rfl, rel, h3, h4, rfl, hb _ _ h5⟩

theorem contentOk (env : Env) (hok : EnvOk env) (f : Forest) : ContentOk env f := by
  induction f with
  | nil =>
    refine ⟨?_, ?_⟩
    · intro path i b fs h
      exact .inl ⟨fs, rfl, by simpa [kids] using h, rfl⟩
    · intro path i ks st h
      exact .inl ⟨st, rfl, by simpa [kids] using h, rfl⟩
  | elem n a ns p ch ep rest ihc ihr => exact contentOk_over env hok ⟨n, a, ns, p, ch, ep⟩ rest ihc ihr
  | chars s c p rest ih => exact ih
  | misc m p rest ih => exact ih

theorem getLast_cons_pos (a : StackElem) (l : List StackElem) {p : Pos} (h : (a :: l).getLast?.map (·.pos) = some p) :
    (l.getLast?.map (·.pos)).getD a.pos = p := by
  cases hl : l.getLast? with
  | none =>
    rw [List.getLast?_eq_none_iff] at hl
    subst hl
    simpa using h
  | some z =>
    rw [List.getLast?_cons, hl] at h
    simpa using h

/-- Reading a document as a derived type: the value of its root element, or its first defect, which is one of
its defects. -/
theorem readDoc_first (env : Env) (hok : EnvOk env) (ty : Ty) (d : Doc) :
    (∃ v, readDoc (derivedVisitor env) (fun _ => deserTy env ty) d = .ok (.ok v) ∧
      bodyValue env (d.root.body env) ty = some v ∧ bodyErr env (d.root.body env) ty = none) ∨
    (∃ df, readDoc (derivedVisitor env) (fun _ => deserTy env ty) d = .ok (.error (reported d.root df)) ∧
      bodyErr env (d.root.body env) ty = some df ∧ bodyBad env (d.root.body env) ty df.rel df.kind) := by
  unfold readDoc
  rw [deser_runAct]
  rcases childOk_of_content env hok [] d.root (contentOk env hok _) ty with ⟨v, stop, h1, h2, h3⟩ | ⟨e, stop, h1, hstop, h2⟩
  · rw [h1]
    exact .inl ⟨v, rfl, h2, h3⟩
  · rw [h1]
    right
    cases e with
    | propagate E =>
      obtain ⟨rel, h3, h3', rel', h4, h5, h6⟩ := h2
      refine ⟨_, ?_, h6, h5⟩
      rw [h3, h4] at h3'
      cases E with | mk kind stack pos =>
      simp only at h3 h3' ⊢
      simp only [List.nil_append] at h3 h3'
      have := getLast_cons_pos _ _ h3'
      simp only [Elem.kid] at this
      simp only [reported, VErr.late, Bool.false_eq_true, if_false, this, h3, h4, Elem.kid]
    | wrap dd =>
      obtain ⟨rel, h3, h3', rel', h4, h5, h6⟩ := h2
      refine ⟨_, ?_, h6, h5⟩
      simp only [reported, VErr.late, if_true, hstop rfl, h3, h4, Elem.kid, List.nil_append]

/-- Reading a document as a derived type: the value of its root element, or one of its defects. -/
theorem readDoc_derived (env : Env) (hok : EnvOk env) (ty : Ty) (d : Doc) :
    (∃ v, readDoc (derivedVisitor env) (fun _ => deserTy env ty) d = .ok (.ok v) ∧
      bodyValue env (d.root.body env) ty = some v) ∨
    (∃ E, readDoc (derivedVisitor env) (fun _ => deserTy env ty) d = .ok (.error E) ∧
      ∃ rel, E.stack = { name := d.root.name, pos := d.root.pos } :: rel ∧
        bodyBad env (d.root.body env) ty rel E.kind) := by
  rcases readDoc_first env hok ty d with ⟨v, h1, h2, -⟩ | ⟨df, h1, h2, h3⟩
  · exact .inl ⟨v, h1, h2⟩
  · exact .inr ⟨_, h1, df.rel, rfl, h3⟩

/-! ## Defects exclude a value -/

theorem allAs_none (ty : Ty) (ks : List Kid) (k : Kid) (hk : k ∈ ks) (h : k.as ty = none) : allAs ty ks = none := by
  induction ks with
  | nil => simp at hk
  | cons k' ks ih =>
    unfold allAs
    rcases List.mem_cons.mp hk with rfl | hk
    · rw [h]
    · rw [ih hk]
      split <;> simp_all

theorem slotBad_none (s : Slot) (a : Option Val) (ks : List Kid) (rel : List StackElem) (kind : ErrKind)
    (hk : ∀ k ∈ ks, ∀ ty rel kind, k.bad ty rel kind → k.as ty = none) (h : slotBad s ks rel kind) :
    slotValue s a ks = none := by
  rcases h with ⟨k, h1, rel', h2, h3⟩ | ⟨h1, k0, k, ks', rfl, h3⟩
  · have hn := hk k h1 _ _ _ h3
    cases ks with
    | nil => simp at h1
    | cons k0 ks =>
      unfold slotValue
      cases hc : s.card with
      | one | opt =>
        simp only
        split
        · rename_i he
          rw [List.isEmpty_iff] at he
          subst he
          rw [List.mem_singleton] at h1
          rw [← h1, hn]
          try rfl
        · rfl
      | many => simp only; rw [allAs_none _ _ _ h1 hn]; rfl
  · unfold slotValue
    cases hc : s.card with
    | one | opt => simp
    | many => exact absurd hc h1

theorem mem_choices {d : EnumDef} {ks : List Kid} {c : Nat × Kid} (h : c ∈ choices d ks) : c.2 ∈ ks := by
  unfold choices at h
  obtain ⟨k, h1, h2⟩ := List.mem_filterMap.mp h
  obtain ⟨i, -, h3⟩ := Option.map_eq_some_iff.mp h2
  rw [← h3]
  exact h1

theorem enumBad_none (d : EnumDef) (ks : List Kid) (rel : List StackElem) (kind : ErrKind)
    (hk : ∀ k ∈ ks, ∀ ty rel kind, k.bad ty rel kind → k.as ty = none)
    (h : enumBad d ks rel kind ∨ enumEmpty d ks rel kind) : enumValue d ks = none := by
  rcases h with ⟨i, k, rest, v, h1, h2, h3⟩ | ⟨h1, -⟩
  · have hmem : ∀ c ∈ (i, k) :: rest, c.2 ∈ ks := fun c hc => mem_choices (by rw [h1]; exact hc)
    unfold enumValue
    rw [h1]
    simp only
    split
    · rename_i hall
      rw [h2]
      simp only
      rcases h3 with ⟨s, h3, h4⟩ | ⟨c, h3, h4, -⟩
      · rw [h3]
        simp only
        rw [filter_all _ _ hall] at h4
        rw [slotBad_none s none _ rel kind ?_ h4]
        · rfl
        · intro k' hk'
          apply hk
          rcases List.mem_cons.mp hk' with rfl | hk'
          · exact hmem (i, _) List.mem_cons_self
          · obtain ⟨c, hc, rfl⟩ := List.mem_map.mp hk'
            exact hmem c (List.mem_cons_of_mem _ hc)
      · have := List.all_eq_true.mp hall c h3
        simp only [beq_iff_eq] at this
        exact absurd this h4
    · rfl
  · unfold enumValue
    rw [h1]

theorem past_subset (env : Env) (es : List Nat) (ks : List Kid) (k : Kid) (h : k ∈ past env es ks) : k ∈ ks := by
  induction es generalizing ks with
  | nil => exact h
  | cons e es ih =>
    have := ih _ h
    exact (List.takeWhile_prefix _).subset this

theorem fieldBad_none (env : Env) (all : List Field) (b : Body) (earlier : List Nat) (f : Field) (rel : List StackElem)
    (kind : ErrKind) (hk : ∀ k ∈ b.kids, ∀ ty rel kind, k.bad ty rel kind → k.as ty = none)
    (h : fieldBad env all b earlier f rel kind ∨ fieldMissing env all b earlier f rel kind) :
    fieldValue env all b earlier f = none := by
  cases f with | mk name kind' default =>
  unfold fieldBad fieldMissing at h
  unfold fieldValue
  cases kind' with
  | element s =>
    simp only at h ⊢
    rcases h with h | ⟨h1, h2, h3, -⟩
    · exact slotBad_none _ _ _ _ _ (fun k hkk => hk k ((List.mem_filter.mp hkk).1)) h
    · rw [h1, h2]
      simp [slotValue, slotAbsent, h3]
  | «attribute» o t =>
    simp only at h ⊢
    rcases h with ⟨-, ⟨a, h1, e, h2, -⟩ | ⟨h1, -⟩⟩ | ⟨h1, h2, h3, -⟩
    · rcases hl : attrsNamed name.expanded b.attrs with _ | ⟨x, _ | ⟨y, l⟩⟩
      · rw [hl] at h1; simp at h1
      · rw [hl, List.mem_singleton] at h1
        subst h1
        simp [attrValue, h2]
      · simp [attrValue]
    · rcases hl : attrsNamed name.expanded b.attrs with _ | ⟨x, _ | ⟨y, l⟩⟩
      · rw [hl] at h1; simp at h1
      · rw [hl] at h1; simp at h1
      · simp [attrValue]
    · rw [h1, h2, h3]
      simp [attrValue, attrAbsent]
  | flatten e =>
    simp only at h ⊢
    refine enumBad_none _ _ rel kind ?_ h
    intro k hkk
    exact hk k ((List.mem_filter.mp (past_subset _ _ _ _ hkk)).1)
  | text t => rfl

theorem fieldsValue_none (env : Env) (all : List Field) (b : Body) (earlier : List Nat) (pre : List Field) (f : Field)
    (post : List Field) (h : fieldValue env all b (earlier ++ flatTypes pre) f = none) :
    fieldsValue env all b earlier (pre ++ f :: post) = none := by
  induction pre generalizing earlier with
  | nil =>
    simp only [List.nil_append, fieldsValue]
    simp only [flatTypes, List.append_nil] at h
    rw [h]
  | cons g pre ih =>
    simp only [List.cons_append, fieldsValue]
    rw [ih]
    · split <;> simp_all
    · rw [List.append_assoc, ← flatTypes_append]
      exact h

theorem bodyBad_none (env : Env) (b : Body) (hk : ∀ k ∈ b.kids, ∀ ty rel kind, k.bad ty rel kind → k.as ty = none)
    (ty : Ty) (rel : List StackElem) (kind : ErrKind) (h : bodyBad env b ty rel kind) : bodyValue env b ty = none := by
  cases ty with
  | text t =>
    unfold bodyValue
    rcases h with ⟨h1, -, e, h2, -⟩ | ⟨k, ks, h1, -⟩
    · simp only [h1, h2]
    · simp only [h1]
  | strct i =>
    obtain ⟨pre, f, post, h1, h2⟩ := h
    simp only [bodyValue, structValue]
    have := fieldsValue_none env (env.strct i).fields b [] pre f post (fieldBad_none _ _ _ _ _ _ _ hk h2)
    rw [← h1] at this
    rw [this]
    rfl
  | enm i => exact enumBad_none _ _ _ _ hk h

theorem kids_bad_none (env : Env) (f : Forest) : ∀ k ∈ kids env f, ∀ ty rel kind, k.bad ty rel kind → k.as ty = none := by
  induction f with
  | nil => intro k hk; simp [kids] at hk
  | elem n a ns p ch ep rest ihc ihr =>
    intro k hk
    rcases List.mem_cons.mp hk with rfl | hk
    · intro ty rel kind h
      exact bodyBad_none env _ ihc ty rel kind h
    · exact ihr k hk
  | chars s c p rest ih => exact ih
  | misc m p rest ih => exact ih

/-- The value read is the value specified. -/
theorem readDoc_value (env : Env) (hok : EnvOk env) (ty : Ty) (d : Doc) (v : Val) :
    readDoc (derivedVisitor env) (fun _ => deserTy env ty) d = .ok (.ok v) ↔ bodyValue env (d.root.body env) ty = some v := by
  rcases readDoc_derived env hok ty d with ⟨w, h1, h2⟩ | ⟨E, h1, rel, h2, h3⟩
  · rw [h1, h2]
    simp
  · rw [h1, bodyBad_none env _ (kids_bad_none env _) ty rel _ h3]
    simp

end SX
