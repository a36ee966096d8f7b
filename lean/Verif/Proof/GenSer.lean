import Verif.Proof.GenEnum

/-
The code generated for `Serialize` does what `Model/OpenSer.lean` says.
-/
namespace SX.Gen
open SX.Open SX.Spec.Gen

theorem andThen_assoc (a b c : AttrProg) : (a.andThen b).andThen c = a.andThen (b.andThen c) := by
  induction a with
  | ret r => rcases r with _ | ⟨⟩ <;> rfl
  | «namespace» p u k ih => simp only [AttrProg.andThen, ih]
  | «attribute» n v k ih => simp only [AttrProg.andThen, ih]

theorem runAttributes_append (self : String → SerVal) : ∀ l m : List AttrStmt,
    runAttributes self (l ++ m) = (runAttributes self l).andThen (runAttributes self m)
  | [], _ => rfl
  | .namespace p u :: l, m => by simp only [List.cons_append, runAttributes, AttrProg.andThen, runAttributes_append self l m]
  | .write f n :: l, m => by simp only [List.cons_append, runAttributes, andThen_assoc, runAttributes_append self l m]
  | .flatten f :: l, m => by simp only [List.cons_append, runAttributes, andThen_assoc, runAttributes_append self l m]

theorem namespaces_run (self : String → SerVal) : ∀ ns : SMap String, runAttributes self (namespaceStmts ns) = writeNamespaces ns
  | [] => rfl
  | x :: ns => by
    have := namespaces_run self ns
    unfold namespaceStmts at this ⊢
    simp only [List.map_cons, runAttributes, this, writeNamespaces]

/-- The field that the code for serialization works on. -/
def sG (self : String → SerVal) (f : GField) : SField where
  name := f.name
  kind := match f.mode with
    | .attribute _ => .attribute (self f.ident).attr
    | .element _ => .element (self f.ident).field
    | .flatten => .flatten (self f.ident).ser
    | .text => .text

theorem attributes_run (self : String → SerVal) (s : GStruct) :
    runAttributes self (attributeStmts s) = (attrFields (s.fields.map (sG self))).andThen (flattenAttrs (s.fields.map (sG self))) := by
  unfold attributeStmts
  rw [runAttributes_append]
  congr 1
  · generalize s.fields = fs
    induction fs with
    | nil => rfl
    | cons f fs ih =>
      rcases hm : f.mode <;> simp only [List.filterMap_cons, hm, List.map_cons, attrFields, sG, runAttributes, ih]
  · generalize s.fields = fs
    induction fs with
    | nil => rfl
    | cons f fs ih =>
      rcases hm : f.mode <;> simp [List.filterMap_cons, hm, flattenAttrs, sG, runAttributes, ih]

theorem children_run (self : String → SerVal) (s : GStruct) :
    runChildren self (elementStmts s) = elemFields (s.fields.map (sG self)) (Open.flattens (s.fields.map (sG self))) := by
  unfold elementStmts
  have h1 : ∀ fs : List GField,
      runChildren self (fs.filterMap fun f => if f.mode = .flatten then some (.flatten f.ident) else none) = Open.flattens (fs.map (sG self)) := by
    intro fs
    induction fs with
    | nil => rfl
    | cons f fs ih =>
      rcases hm : f.mode <;> simp [List.filterMap_cons, hm, Open.flattens, sG, runChildren, ih]
  rw [← h1 s.fields]
  generalize (s.fields.filterMap fun f => if f.mode = .flatten then some (ChildStmt.flatten f.ident) else none) = l
  generalize s.fields = fs
  induction fs with
  | nil => rfl
  | cons f fs ih =>
    rcases hm : f.mode <;> simp [List.filterMap_cons, hm, elemFields, sG, runChildren, ih]

theorem sG_bare (self : String → SerVal) (f : GField) : sG self (bare f) = sG self f := by
  unfold sG bare
  cases f.mode <;> rfl

theorem sG_newField (self : String → SerVal) (ty : String → String) (f : MField) : sG self (newField ty f) = sField self f := by
  unfold sG sField newField newMode
  cases f.mode <;> rfl

theorem struct_ser (ident : String) (ty : String → String) (s : MStruct) (self : String → SerVal) :
    (serStructCode s.attr (GStruct.ofDescribed ident ty s)).ser self = structSer s.attr.namespaces (s.fields.map (sField self)) := by
  have hb := new_bare ident (s.fields.map (newField ty))
  have hf : (GStruct.ofDescribed ident ty s).fields.map (sG self) = s.fields.map (sField self) := by
    have := congrArg (List.map (sG self)) hb
    simp only [List.map_map] at this
    rw [show (sG self ∘ bare) = sG self from funext (sG_bare self)] at this
    rw [show (sG self ∘ bare ∘ newField ty) = sField self from funext fun f => (sG_bare self _).trans (sG_newField self ty f)] at this
    exact this
  unfold SerCode.ser serStructCode structSer
  simp only [runAttributes_append, namespaces_run, attributes_run, children_run, hf]

theorem runArms_scan (wildcard : Bool) (payload : Option SerVal) (ty : String → String) {i : Nat} {v : MVariant} :
    ∀ (l : List (Nat × MVariant)) (j : Nat), l[j]? = some (i, v) → (∀ (x : Nat × MVariant) j', l[j']? = some x → x.2.ident = v.ident → j' = j) →
    payload.isSome = v.payload →
    runArms wildcard v.ident payload ((l.map fun x => newVariant ty x.2).map fun v =>
      { variant := v.ident, payload := v.ty.isSome, name := v.name.expanded }) = some ((enumSer [] (sVariant v payload)).children)
  | [], _, h, _, _ => by simp at h
  | x :: l, 0, h, _, hp => by
    simp only [List.getElem?_cons_zero, Option.some.injEq] at h
    subst h
    have hp' : (newVariant ty v).ty.isSome = v.payload := by
      unfold newVariant; cases v.payload <;> rfl
    simp only [List.map_cons, runArms, hp', show (newVariant ty v).ident = v.ident from rfl, if_true, ← hp]
    cases payload <;> rfl
  | x :: l, j + 1, h, hu, hp => by
    simp only [List.getElem?_cons_succ] at h
    have hne : x.2.ident ≠ v.ident := by
      intro hx
      have := hu x 0 (by simp) hx
      omega
    have ih := runArms_scan wildcard payload ty l j h (by
      intro y j' hy hyv
      have := hu y (j' + 1) (by simpa using hy) hyv
      omega) hp
    rw [← ih]
    simp only [List.map_cons]
    exact if_neg hne

theorem enum_ser (ident : String) (ty : String → String) (e : MEnum) (hn : (e.variants.map fun v => v.ident).Nodup)
    (self : String → SerVal) (v : MVariant) (hv : v ∈ e.variants) (payload : Option SerVal) (hp : payload.isSome = v.payload) :
    (serEnumCode e.attr (GEnum.ofDescribed ident ty e)).ser self v.ident payload = some (enumSer e.attr.namespaces (sVariant v payload)) := by
  obtain ⟨i, hi⟩ := List.getElem?_of_mem hv
  obtain ⟨j, hj⟩ := List.getElem?_of_mem (order_mem.mpr hi)
  unfold SerEnumCode.ser serEnumCode
  simp only [order_variants, namespaces_run]
  rw [runArms_scan _ payload ty (order e.variants) j hj (fun x j' hx hxv => order_ident e hn hx hj hxv) hp]
  rfl

theorem enum_ser_skipped (ident : String) (ty : String → String) (e : MEnum) (self : String → SerVal) (variant : String)
    (hv : ∀ v ∈ e.variants, v.ident ≠ variant) (payload : Option SerVal) :
    (serEnumCode e.attr (GEnum.ofDescribed ident ty e)).ser self variant payload =
      if e.hasSkipped then some (enumSer e.attr.namespaces .skipped) else none := by
  unfold SerEnumCode.ser serEnumCode
  simp only [order_variants, namespaces_run]
  have key : ∀ l : List (Nat × MVariant), (∀ x ∈ l, x.2.ident ≠ variant) →
      runArms (GEnum.ofDescribed ident ty e).hasSkipped variant payload ((l.map fun x => newVariant ty x.2).map fun v =>
        { variant := v.ident, payload := v.ty.isSome, name := v.name.expanded }) = if e.hasSkipped then some (.ret (.ok ())) else none := by
    intro l
    induction l with
    | nil => intro _; rfl
    | cons x l ih =>
      intro h
      rw [← ih fun y hy => h y (List.mem_cons_of_mem _ hy)]
      simp only [List.map_cons]
      exact if_neg (h x List.mem_cons_self)
  rw [key (order e.variants) (fun x hx => hv x.2 (List.mem_of_getElem? (order_mem.mp hx)))]
  cases e.hasSkipped <;> rfl

end SX.Gen
