import Verif.Proof.DeriveSafe
import Verif.Proof.Reader
import Verif.Spec.Derive

/-
The derived visitors compute the value of an element as specified in `Spec/Derive.lean`.
-/
namespace SX
open Spec

/-! ## Lookups -/

theorem lookup_cases (t : List (Nat × EName)) (ht : SortedNames (t.map Prod.snd)) (name : EName) :
    (∃ p, lookup name t = .ok (some p) ∧ (p, name) ∈ t) ∨ (lookup name t = .ok none ∧ name ∉ t.map Prod.snd) := by
  unfold lookup
  rcases find_spec _ ht name with ⟨i, h1, h2⟩ | ⟨h1, h2⟩
  · rw [h1]
    rw [List.getElem?_map] at h2
    obtain ⟨q, hq1, hq2⟩ := Option.map_eq_some_iff.mp h2
    left
    refine ⟨q.1, by simp only [hq1], ?_⟩
    have := List.mem_of_getElem? hq1
    rw [← hq2]
    exact this
  · exact .inr ⟨by rw [h1], h2⟩

theorem lookup_elem (fields : List Field) (n : EName) :
    (∃ p f s, lookup n (structTable (elemNames fields 0)) = .ok (some p) ∧ fields[p]? = some f ∧ f.kind = .element s ∧
      f.name.expanded = n) ∨
    (lookup n (structTable (elemNames fields 0)) = .ok none ∧ declaredElem fields n = false) := by
  rcases lookup_cases _ (structTable_sorted (elemNames fields 0)) n with ⟨p, h1, h2⟩ | ⟨h1, h2⟩
  · left
    have := (structTable_perm (elemNames fields 0)).mem_iff.mp h2
    obtain ⟨⟨q, nm⟩, h3, h4⟩ := List.mem_map.mp this
    obtain ⟨f, s, -, h5, h6, h7⟩ := (elemNames_mem _ _ _ _).mp h3
    simp only [Prod.mk.injEq] at h4
    exact ⟨p, f, s, h1, by simpa [h4.1] using h5, h6, by rw [h7]; exact h4.2⟩
  · right
    refine ⟨h1, ?_⟩
    rw [Bool.eq_false_iff]
    intro h
    obtain ⟨f, hf, hn⟩ := List.any_eq_true.mp h
    apply h2
    obtain ⟨p, hp⟩ := List.getElem?_of_mem hf
    split at hn
    · rename_i s hk
      have hm : (p, f.name) ∈ elemNames fields 0 := (elemNames_mem _ _ _ _).mpr ⟨f, s, by omega, by simpa using hp, hk, rfl⟩
      have : (p, f.name.expanded) ∈ structTable (elemNames fields 0) :=
        (structTable_perm _).mem_iff.mpr (List.mem_map.mpr ⟨_, hm, rfl⟩)
      exact List.mem_map.mpr ⟨_, this, by simpa using hn⟩
    · simp at hn

theorem lookup_attr (fields : List Field) (n : EName) :
    (∃ p f o t, lookup n (structTable (attrNames fields 0)) = .ok (some p) ∧ fields[p]? = some f ∧
      f.kind = .attribute o t ∧ f.name.expanded = n) ∨
    (lookup n (structTable (attrNames fields 0)) = .ok none ∧
      ∀ f ∈ fields, ∀ o t, f.kind = .attribute o t → f.name.expanded ≠ n) := by
  rcases lookup_cases _ (structTable_sorted (attrNames fields 0)) n with ⟨p, h1, h2⟩ | ⟨h1, h2⟩
  · left
    have := (structTable_perm (attrNames fields 0)).mem_iff.mp h2
    obtain ⟨⟨q, nm⟩, h3, h4⟩ := List.mem_map.mp this
    obtain ⟨f, o, t, -, h5, h6, h7⟩ := (attrNames_mem _ _ _ _).mp h3
    simp only [Prod.mk.injEq] at h4
    exact ⟨p, f, o, t, h1, by simpa [h4.1] using h5, h6, by rw [h7]; exact h4.2⟩
  · right
    refine ⟨h1, ?_⟩
    intro f hf o t hk hn
    apply h2
    obtain ⟨p, hp⟩ := List.getElem?_of_mem hf
    have hm : (p, f.name) ∈ attrNames fields 0 :=
      (attrNames_mem _ _ _ _).mpr ⟨f, o, t, by omega, by simpa using hp, hk, rfl⟩
    have : (p, f.name.expanded) ∈ structTable (attrNames fields 0) :=
      (structTable_perm _).mem_iff.mpr (List.mem_map.mpr ⟨_, hm, rfl⟩)
    exact List.mem_map.mpr ⟨_, this, hn⟩

theorem variantOf_some {d : EnumDef} {n : EName} {i : Nat} (h : variantOf d n = some i) :
    ∃ v, d.variants[i]? = some v ∧ v.skip = false ∧ v.name.expanded = n := by
  unfold variantOf at h
  obtain ⟨hi, h1, -⟩ := List.findIdx?_eq_some_iff_getElem.mp h
  refine ⟨d.variants[i], by simp, ?_⟩
  simpa using h1

theorem variantOf_none {d : EnumDef} {n : EName} (h : variantOf d n = none) (v : Variant) (hv : v ∈ d.variants)
    (hs : v.skip = false) : v.name.expanded ≠ n := by
  unfold variantOf at h
  have := List.findIdx?_eq_none_iff.mp h v hv
  simpa [hs] using this

theorem lookup_variant (env : Env) (hok : EnvOk env) (e : Nat) (n : EName) :
    lookup n (enumTable (variantNames (env.enm e).variants 0)) = .ok (variantOf (env.enm e) n) := by
  have hs := enumTable_sorted (variantNames (env.enm e).variants 0) (by
    have hmem : ∀ d ∈ (variantNames (env.enm e).variants 0).map Prod.snd, d ∈ (env.enm e).variants.map Variant.name := by
      intro d hd
      obtain ⟨⟨p, nm⟩, hp, rfl⟩ := List.mem_map.mp hd
      obtain ⟨v, -, h1, -, h2⟩ := (variantNames_mem _ _ _ _).mp hp
      exact List.mem_map.mpr ⟨v, List.mem_of_getElem? h1, h2⟩
    exact fun d hd e' he' => hok.noneFirst e d (hmem d hd) e' (hmem e' he'))
  rcases lookup_cases _ hs n with ⟨p, h1, h2⟩ | ⟨h1, h2⟩
  · have := (enumTable_perm _).mem_iff.mp h2
    obtain ⟨⟨q, nm⟩, h3, h4⟩ := List.mem_map.mp this
    obtain ⟨v, -, h5, h6, h7⟩ := (variantNames_mem _ _ _ _).mp h3
    simp only [Prod.mk.injEq] at h4
    rw [h1]
    cases hv : variantOf (env.enm e) n with
    | none =>
      exact absurd (by rw [h7]; exact h4.2) (variantOf_none hv v (List.mem_of_getElem? h5) h6)
    | some i =>
      obtain ⟨w, h8, -, h9⟩ := variantOf_some hv
      have := hok.variants e q i v w (by simpa using h5) h8 (by rw [h7, h9]; exact h4.2)
      rw [← this, ← h4.1]
  · rw [h1]
    cases hv : variantOf (env.enm e) n with
    | none => rfl
    | some i =>
      obtain ⟨w, h8, h10, h9⟩ := variantOf_some hv
      exfalso
      apply h2
      have hm : (i, w.name) ∈ variantNames (env.enm e).variants 0 :=
        (variantNames_mem _ _ _ _).mpr ⟨w, by omega, by simpa using h8, h10, rfl⟩
      have : (i, w.name.expanded) ∈ enumTable (variantNames (env.enm e).variants 0) :=
        (enumTable_perm _).mem_iff.mpr (List.mem_map.mpr ⟨_, hm, rfl⟩)
      exact List.mem_map.mpr ⟨_, this, h9⟩

/-! ## Running an action on an element -/

def runAct {σ ρ : Type} (V : Visitor σ) (path : List StackElem) (x : Elem) (act : Action σ ρ) : Except Fault (ρ × Stop) :=
  let here := path ++ [{ name := x.name, pos := x.pos }]
  match act with
  | .done r => .ok (r, { path := here, pos := x.pos })
  | .readString k => .ok (k (asText here x.children x.endPos).1, (asText here x.children x.endPos).2)
  | .readTo sub k =>
    match attributes V here x.pos x.attrs sub with
    | .error f => .error f
    | .ok (sub, .error e) => .ok (k sub (.error (.propagate e)), { path := here, pos := x.pos })
    | .ok (sub, .ok ()) =>
      match content V here x.children sub with
      | .error f => .error f
      | .ok (sub, .error (e, stop)) => .ok (k sub (.error (.propagate e)), stop)
      | .ok (sub, .ok ()) => .ok (k sub (.ok (x.name, x.ns, x.endPos)), { path := here, pos := x.endPos })

theorem runAct_map {σ ρ ρ' : Type} (V : Visitor σ) (path : List StackElem) (x : Elem) (act : Action σ ρ) (g : ρ → ρ') :
    runAct V path x (act.map g) = (runAct V path x act).map fun r => (g r.1, r.2) := by
  cases act with
  | done r => rfl
  | readString k => rfl
  | readTo sub k =>
    simp only [runAct, Action.map]
    split
    · rfl
    · rfl
    · split <;> rfl

theorem runAct_map_ok {σ ρ ρ' : Type} {V : Visitor σ} {path : List StackElem} {x : Elem} {act : Action σ ρ} {r : ρ}
    {stop : Stop} (h : runAct V path x act = .ok (r, stop)) (g : ρ → ρ') :
    runAct V path x (act.map g) = .ok (g r, stop) := by
  rw [runAct_map, h]
  rfl

def Elem.over (x : Elem) (rest : Forest) : Forest := .elem x.name x.attrs x.ns x.pos x.children x.endPos rest

theorem content_over {σ : Type} (V : Visitor σ) (path : List StackElem) (x : Elem) (rest : Forest) (v : σ) :
    content V path (Elem.over x rest) v =
      match runAct V path x (V.onElem v { name := x.name, ns := x.ns, depth := path.length + 1 }) with
      | .error f => .error f
      | .ok (.error f, _) => .error f
      | .ok (.ok (v, .error (.propagate e)), stop) => .ok (v, .error (e, stop))
      | .ok (.ok (v, .error (.wrap e)), stop) =>
        .ok (v, .error ({ kind := .deserializer e, stack := stop.path, pos := x.pos }, stop))
      | .ok (.ok (v, .ok ()), _) => content V path rest v := by
  simp only [Elem.over, content, List.length_append, List.length_singleton]
  cases V.onElem v { name := x.name, ns := x.ns, depth := path.length + 1 } <;> rfl

theorem deser_runAct {σ α : Type} (V : Visitor σ) (D : Deser σ α) (path : List StackElem) (x : Elem) :
    deser V D path x =
      match runAct V path x (D { name := x.name, ns := x.ns, depth := path.length + 1 }) with
      | .error f => .error f
      | .ok (.error f, _) => .error f
      | .ok (.ok r, stop) => .ok (r, stop) := by
  simp only [deser, List.length_append, List.length_singleton]
  cases D { name := x.name, ns := x.ns, depth := path.length + 1 } <;> rfl

/-! ## Errors -/

/-- The error (or the error it is about to be turned into at `pos`) is one of those described by `P`, relative to
`path`, and its position is that of the last element on its stack. -/
def Blames (path : List StackElem) (pos : Pos) (P : List StackElem → ErrKind → Prop) (e : VErr) (stop : Stop) : Prop :=
  match e with
  | .propagate E => ∃ rel, E.stack = path ++ rel ∧ E.stack.getLast?.map (·.pos) = some E.pos ∧ P rel E.kind
  | .wrap d => ∃ rel, stop.path = path ++ rel ∧ stop.path.getLast?.map (·.pos) = some pos ∧ P rel (.deserializer d)

theorem Blames.mono {path : List StackElem} {pos : Pos} {P Q : List StackElem → ErrKind → Prop} {e : VErr} {stop : Stop}
    (h : Blames path pos P e stop) (hPQ : ∀ rel kind, P rel kind → Q rel kind) : Blames path pos Q e stop := by
  cases e with
  | propagate E =>
    obtain ⟨rel, h1, h2, h3⟩ := h
    exact ⟨rel, h1, h2, hPQ _ _ h3⟩
  | wrap d =>
    obtain ⟨rel, h1, h2, h3⟩ := h
    exact ⟨rel, h1, h2, hPQ _ _ h3⟩

/-- The child element as the specification sees it. -/
def Elem.kid (env : Env) (x : Elem) : Kid :=
  { node := { name := x.name, pos := x.pos }, as := bodyValue env (x.body env), bad := bodyBad env (x.body env)
    err := bodyErr env (x.body env) }

theorem kids_over (env : Env) (x : Elem) (rest : Forest) : kids env (Elem.over x rest) = Elem.kid env x :: kids env rest := rfl

/-- Whether an error is still to be given its place. -/
def VErr.late : VErr → Bool
  | .propagate _ => false
  | .wrap _ => true

def ChildOk (env : Env) (path : List StackElem) (x : Elem) : Prop := ∀ ty,
  (∃ v stop, runAct (derivedVisitor env) path x (deserTy env ty) = .ok (.ok (.ok v), stop) ∧ (Elem.kid env x).as ty = some v ∧
    (Elem.kid env x).err ty = none) ∨
  (∃ e stop, runAct (derivedVisitor env) path x (deserTy env ty) = .ok (.ok (.error e), stop) ∧
    (e.late = true → stop.pos = x.endPos) ∧
    Blames path x.pos (fun rel kind => ∃ rel', rel = (Elem.kid env x).node :: rel' ∧ (Elem.kid env x).bad ty rel' kind ∧
      (Elem.kid env x).err ty = some ⟨rel', kind, e.late⟩) e stop)

/-! ## Fields of type `T`, `Option<T>`, `Vec<T>` -/

theorem allAs_append (ty : Ty) (ks : List Kid) (k : Kid) (l : List Val) (v : Val) (h : allAs ty ks = some l)
    (hv : k.as ty = some v) : allAs ty (ks ++ [k]) = some (l ++ [v]) := by
  induction ks generalizing l with
  | nil =>
    simp only [allAs, Option.some.injEq] at h
    subst h
    simp [allAs, hv]
  | cons k' ks ih =>
    simp only [allAs] at h
    split at h
    · rename_i v' vs h1 h2
      simp only [Option.some.injEq] at h
      subst h
      simp [allAs, h1, ih _ h2]
    · simp at h

theorem slotBad_mono (s : Slot) (ks more : List Kid) (rel : List StackElem) (kind : ErrKind) (h : slotBad s ks rel kind) :
    slotBad s (ks ++ more) rel kind := by
  rcases h with ⟨k, h1, h2⟩ | ⟨h1, k0, k, ks', h2, h3⟩
  · exact .inl ⟨k, List.mem_append_left _ h1, h2⟩
  · exact .inr ⟨h1, k0, k, ks' ++ more, by rw [h2]; simp, h3⟩

theorem slotInit_step (env : Env) (path : List StackElem) (x : Elem) (hx : ChildOk env path x) (s : Slot) :
    (∃ v stop, runAct (derivedVisitor env) path x (slotInit env s) = .ok (.ok (.ok v), stop) ∧
      slotValue s none [Elem.kid env x] = some v ∧ slotErr s [] (Elem.kid env x) = none) ∨
    (∃ e stop, runAct (derivedVisitor env) path x (slotInit env s) = .ok (.ok (.error e), stop) ∧
      Blames path x.pos (fun rel kind => slotBad s [Elem.kid env x] rel kind ∧
        slotErr s [] (Elem.kid env x) = some (rel, kind)) e stop) := by
  rcases hx s.ty with ⟨v, stop, h1, h2, h3⟩ | ⟨e, stop, h1, -, h2⟩
  · left
    refine ⟨_, stop, runAct_map_ok h1 _, ?_, by simp [slotErr, h3]⟩
    simp only [slotValue, allAs, h2]
    cases s.card <;> simp
  · right
    refine ⟨e, stop, runAct_map_ok h1 _, h2.mono ?_⟩
    rintro rel kind ⟨rel', h3, h4, h5⟩
    exact ⟨.inl ⟨_, List.mem_singleton_self _, rel', h3, h4⟩, by simp [slotErr, h5, h3]⟩

theorem slotUpdate_step (env : Env) (path : List StackElem) (x : Elem) (hx : ChildOk env path x) (s : Slot)
    (ks : List Kid) (hks : ks ≠ []) (c : Val) (hc : slotValue s none ks = some c) :
    (∃ v stop, runAct (derivedVisitor env) path x (slotUpdate env s (some c) (Elem.kid env x).name) = .ok (.ok (.ok v), stop) ∧
      slotValue s none (ks ++ [Elem.kid env x]) = some v ∧ slotErr s ks (Elem.kid env x) = none) ∨
    (∃ e stop, runAct (derivedVisitor env) path x (slotUpdate env s (some c) (Elem.kid env x).name) = .ok (.ok (.error e), stop) ∧
      Blames path x.pos (fun rel kind => slotBad s (ks ++ [Elem.kid env x]) rel kind ∧
        slotErr s ks (Elem.kid env x) = some (rel, kind)) e stop) := by
  cases ks with
  | nil => exact absurd rfl hks
  | cons k0 ks =>
    unfold slotValue at hc
    cases hcard : s.card with
    | one | opt =>
      right
      simp only [hcard] at hc
      split at hc
      · rename_i hemp
        rw [List.isEmpty_iff] at hemp
        subst hemp
        simp only [slotUpdate, hcard]
        refine ⟨_, _, rfl, ?_⟩
        exact ⟨[(Elem.kid env x).node], rfl, by simp, .inr ⟨by simp [hcard], k0, Elem.kid env x, [], rfl, rfl, rfl⟩,
          by simp [slotErr, hcard]⟩
      · simp at hc
    | many =>
      simp only [hcard] at hc
      obtain ⟨l, h1, h2⟩ := Option.map_eq_some_iff.mp hc
      subst h2
      simp only [slotUpdate, hcard]
      rcases hx s.ty with ⟨v, stop, h3, h4, h5⟩ | ⟨e, stop, h3, -, h4⟩
      · left
        refine ⟨_, stop, runAct_map_ok h3 _, ?_, by simp [slotErr, hcard, h5]⟩
        simp only [slotValue, List.cons_append, hcard]
        rw [← List.cons_append, allAs_append _ _ _ _ _ h1 h4]
        rfl
      · right
        refine ⟨e, stop, runAct_map_ok h3 _, h4.mono ?_⟩
        rintro rel kind ⟨rel', h5, h6, h7⟩
        exact ⟨.inl ⟨_, by simp, rel', h5, h6⟩, by simp [slotErr, hcard, h7, h5]⟩

/-! ## Enums -/

theorem choices_append (d : EnumDef) (ks ks' : List Kid) : choices d (ks ++ ks') = choices d ks ++ choices d ks' :=
  List.filterMap_append

theorem choices_none (d : EnumDef) (k : Kid) (h : variantOf d k.name = none) : choices d [k] = [] := by
  simp [choices, h]

theorem choices_some (d : EnumDef) (k : Kid) {i : Nat} (h : variantOf d k.name = some i) : choices d [k] = [(i, k)] := by
  simp [choices, h]

theorem enumBad_mono (d : EnumDef) (ks more : List Kid) (rel : List StackElem) (kind : ErrKind)
    (h : enumBad d ks rel kind) : enumBad d (ks ++ more) rel kind := by
  obtain ⟨i, k, rest, v, h1, h2, h3⟩ := h
  refine ⟨i, k, rest ++ choices d more, v, by rw [choices_append, h1]; rfl, h2, ?_⟩
  rcases h3 with ⟨s, h3, h4⟩ | ⟨c, h3, h4⟩
  · left
    refine ⟨s, h3, ?_⟩
    rw [List.filter_append, List.map_append, ← List.cons_append]
    exact slotBad_mono _ _ _ _ _ h4
  · exact .inr ⟨c, List.mem_append_left _ h3, h4⟩

/-- The state of an enum's visitor after the children `ks`. -/
def EnumOk (d : EnumDef) (ks : List Kid) (st : FState) : Prop :=
  (choices d ks = [] ∧ st = { present := false, cell := none }) ∨
  (choices d ks ≠ [] ∧ ∃ v, enumValue d ks = some v ∧ st = { present := true, cell := some v })

theorem EnumOk.skip {d : EnumDef} {ks : List Kid} {st : FState} (h : EnumOk d ks st) {k : Kid}
    (hk : variantOf d k.name = none) : EnumOk d (ks ++ [k]) st := by
  have : choices d (ks ++ [k]) = choices d ks := by rw [choices_append, choices_none d k hk, List.append_nil]
  unfold EnumOk enumValue
  rw [this]
  exact h

theorem filter_all {α : Type} (p : α → Bool) (l : List α) (h : l.all p = true) : l.filter p = l := by
  rw [List.filter_eq_self]
  simpa using h

theorem enumElement_step (env : Env) (hok : EnvOk env) (path : List StackElem) (x : Elem) (hx : ChildOk env path x) (e : Nat)
    (ks : List Kid) (st : FState) (h : EnumOk (env.enm e) ks st) :
    (choices (env.enm e) ks = [] ∧ variantOf (env.enm e) (Elem.kid env x).name = none ∧
      enumElement env e st (Elem.kid env x).name = .ok none) ∨
    ((choices (env.enm e) ks ≠ [] ∨ variantOf (env.enm e) (Elem.kid env x).name ≠ none) ∧
      ∃ act, enumElement env e st (Elem.kid env x).name = .ok (some act) ∧
        ((∃ st' stop, runAct (derivedVisitor env) path x act = .ok (.ok (st', .ok ()), stop) ∧
            EnumOk (env.enm e) (ks ++ [Elem.kid env x]) st' ∧ enumErr (env.enm e) ks (Elem.kid env x) = none) ∨
          (∃ st' err stop, runAct (derivedVisitor env) path x act = .ok (.ok (st', .error err), stop) ∧
            Blames path x.pos (fun rel kind => enumBad (env.enm e) (ks ++ [Elem.kid env x]) rel kind ∧
              enumErr (env.enm e) ks (Elem.kid env x) = some (rel, kind)) err stop))) := by
  have hEnumOk := h
  generalize hn : Elem.kid env x = k
  have hnode : k.node = { name := x.name, pos := x.pos } := by rw [← hn]; rfl
  unfold enumElement
  simp only [lookup_variant env hok]
  rcases h with ⟨h1, rfl⟩ | ⟨h1, c, h2, rfl⟩
  · simp only [Bool.false_eq_true, if_false]
    cases hv : variantOf (env.enm e) k.name with
    | none => exact .inl ⟨h1, rfl, rfl⟩
    | some i =>
      right
      refine ⟨.inr (by simp), ?_⟩
      obtain ⟨v, hv1, -, hv2⟩ := variantOf_some hv
      simp only [hv1]
      have hch : choices (env.enm e) (ks ++ [k]) = [(i, k)] := by
        rw [choices_append, h1, choices_some _ _ hv]; rfl
      cases hs : v.slot with
      | none =>
        simp only
        refine ⟨_, rfl, .inl ⟨_, _, rfl, .inr ⟨by simp [hch], ?_⟩, by simp [enumErr, hv, h1, variantErr, hv1, hs]⟩⟩
        refine ⟨_, ?_, rfl⟩
        simp [enumValue, hch, hv1, hs]
      | some s =>
        simp only
        refine ⟨_, rfl, ?_⟩
        rcases slotInit_step env path x hx s with ⟨w, stop, h3, h4, h5⟩ | ⟨err, stop, h3, h4⟩
        · left
          rw [hn] at h5
          refine ⟨_, stop, runAct_map_ok h3 _, .inr ⟨by simp [hch], _, ?_, rfl⟩, by simp [enumErr, hv, h1, variantErr, hv1, hs, h5]⟩
          rw [hn] at h4
          simp [enumValue, hch, hv1, hs, h4]
        · right
          refine ⟨_, err, stop, runAct_map_ok h3 _, h4.mono ?_⟩
          intro rel kind hb
          rw [hn] at hb
          refine ⟨⟨i, k, [], v, hch, hv1, .inl ⟨s, hs, ?_⟩⟩, by simp [enumErr, hv, h1, variantErr, hv1, hs, hb.2]⟩
          exact hb.1
  · right
    refine ⟨.inl h1, ?_⟩
    -- the variant chosen
    unfold enumValue at h2
    split at h2
    · rename_i hc; exact absurd hc h1
    · rename_i i k0 rest hc
      split at h2
      · rename_i hall
        split at h2
        · simp at h2
        · rename_i v hv1
          have hch : choices (env.enm e) (ks ++ [k]) = (i, k0) :: (rest ++ choices (env.enm e) [k]) := by
            rw [choices_append, hc]; rfl
          cases hv : variantOf (env.enm e) k.name with
          | none =>
            -- not for this enum: ignored
            have hst : ∃ p, c = .enm i p := by
              split at h2
              · simp only [Option.some.injEq] at h2; exact ⟨_, h2.symm⟩
              · obtain ⟨p, -, hp⟩ := Option.map_eq_some_iff.mp h2
                exact ⟨_, hp.symm⟩
            obtain ⟨p, rfl⟩ := hst
            simp only [if_true, hv1, reduceCtorEq, if_false]
            exact ⟨_, rfl, .inl ⟨_, _, rfl, hEnumOk.skip hv, by simp [enumErr, hv]⟩⟩
          | some j =>
            rw [choices_some _ _ hv] at hch
            cases hs : v.slot with
            | none =>
              simp only [hs, Option.some.injEq] at h2
              subst h2
              simp only [if_true, hv1, Option.some.injEq]
              by_cases hij : j = i
              · simp only [hij, if_true, hs]
                refine ⟨_, rfl, .inl ⟨_, _, rfl, .inr ⟨by simp [hch], _, ?_, rfl⟩, by simp [enumErr, hv, hc, hij, variantErr, hv1, hs]⟩⟩
                simp only [enumValue, hch, List.all_append, hall, hij, List.all_cons, List.all_nil, beq_self_eq_true,
                  Bool.and_self, if_true, hv1, hs]
              · simp only [hij, if_false]
                refine ⟨_, rfl, .inr ⟨_, _, _, rfl, [k.node], by rw [hnode], by simp, ?_⟩⟩
                exact ⟨⟨i, k0, _, v, hch, hv1, .inr ⟨(j, k), by simp, hij, rfl, rfl⟩⟩, by simp [enumErr, hv, hc, hij, hv1]⟩
            | some s =>
              simp only [hs] at h2
              obtain ⟨p, hp1, hp2⟩ := Option.map_eq_some_iff.mp h2
              subst hp2
              simp only [if_true, hv1, Option.some.injEq]
              by_cases hij : j = i
              · simp only [hij, if_true, hs]
                refine ⟨_, rfl, ?_⟩
                rw [hij] at hch
                rcases slotUpdate_step env path x hx s _ (by simp) p hp1 with ⟨w, stop, h3, h4, h5⟩ | ⟨err, stop, h3, h4⟩
                · left
                  rw [hn] at h3 h4 h5
                  refine ⟨_, stop, runAct_map_ok h3 _, .inr ⟨by simp [hch], _, ?_, rfl⟩,
                    by simp [enumErr, hv, hc, hij, variantErr, hv1, hs, h5]⟩
                  simp only [List.cons_append] at h4
                  simp only [enumValue, hch, List.all_append, hall, List.all_cons, List.all_nil, beq_self_eq_true,
                    Bool.and_self, if_true, hv1, hs, List.map_append, List.map_cons, List.map_nil, h4, Option.map_some]
                · right
                  rw [hn] at h3 h4
                  refine ⟨_, err, stop, runAct_map_ok h3 _, h4.mono ?_⟩
                  intro rel kind hb
                  refine ⟨⟨i, k0, _, v, hch, hv1, .inl ⟨s, hs, ?_⟩⟩, by simp [enumErr, hv, hc, hij, variantErr, hv1, hs, hb.2]⟩
                  rw [filter_all _ _ (by simp [hall])]
                  simpa using hb.1
              · simp only [hij, if_false]
                refine ⟨_, rfl, .inr ⟨_, _, _, rfl, [k.node], by rw [hnode], by simp, ?_⟩⟩
                exact ⟨⟨i, k0, _, v, hch, hv1, .inr ⟨(j, k), by simp, hij, rfl, rfl⟩⟩, by simp [enumErr, hv, hc, hij, hv1]⟩
      · simp at h2

end SX
