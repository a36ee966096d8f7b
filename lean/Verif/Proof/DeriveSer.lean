import Verif.Model.DeriveSer
import Verif.Spec.DeriveSer
import Verif.Proof.WriterTotal

namespace SX
open Spec

/-! ### The generated code, as a list of items -/

/-- Continue after success. -/
def WCont.next {o : Bool} {hs : List Handle} (k : WCont o hs) (p : Prog (.writer o :: hs)) : WCont o hs := fun r =>
  match r with
  | .error e => k (.error e)
  | .ok () => p

def runItem (env : Env) {o : Bool} {hs : List Handle} (it : Item) (k : WCont o hs) : Prog (.writer o :: hs) :=
  match it.value with
  | none => writeUnit it.name k
  | some (ty, v) => writeElem it.name (writeAttributes env ty v) (fun k => writeChildren env ty v k) k

def runItems (env : Env) {o : Bool} {hs : List Handle} : List Item → WCont o hs → Prog (.writer o :: hs)
  | [], k => k (.ok ())
  | it :: l, k => runItem env it (k.next (runItems env l k))

theorem runItems_append (env : Env) {o : Bool} {hs : List Handle} (a b : List Item) (k : WCont o hs) :
    runItems env (a ++ b) k = runItems env a (k.next (runItems env b k)) := by
  induction a with
  | nil => rfl
  | cons it a ih =>
    simp only [List.cons_append, runItems, ih]
    congr 1

theorem writeVec_items (env : Env) {o : Bool} {hs : List Handle} (ty : Ty) (name : EName) (l : List Val) (k : WCont o hs) :
    writeVec env ty name l k = runItems env (l.map fun x => { name, value := some (ty, x) }) k := by
  induction l with
  | nil => rw [writeVec.eq_def]; rfl
  | cons v l ih =>
    rw [writeVec.eq_def]
    simp only [List.map_cons, runItems, runItem, ih]
    congr 1

theorem writeField_items (env : Env) {o : Bool} {hs : List Handle} (s : Slot) (name : EName) (v : Val) (k : WCont o hs) :
    writeField env s name v k = runItems env (fieldItems s name v) k := by
  have one : ∀ x, writeElem name (writeAttributes env s.ty x) (fun k => writeChildren env s.ty x k) k =
      runItems env [{ name, value := some (s.ty, x) }] k := by
    intro x
    simp only [runItems, runItem]
    congr 1
    funext r
    cases r <;> rfl
  rw [writeField.eq_def]
  obtain ⟨card, ty⟩ := s
  cases card <;> simp only [fieldItems, valuesOf, List.map_cons, List.map_nil]
  · exact one v
  · cases v with
    | opt o =>
      cases o with
      | none => rfl
      | some w => exact one w
    | _ => rfl
  · cases v with
    | vec l => exact writeVec_items env ty name l k
    | _ => rfl

theorem writeVariant_items (env : Env) {o : Bool} {hs : List Handle} (i : Nat) (v : Val) (k : WCont o hs) :
    writeChildren env (.enm i) v k = runItems env (variantItems (env.enm i) v) k := by
  rw [writeChildren.eq_def]
  cases v with
  | enm j p =>
    simp only [variantItems]
    cases hw : (env.enm i).variants[j]? with
    | none => rfl
    | some w =>
      simp only
      split
      · rfl
      · cases w.slot with
        | none =>
          cases p with
          | none =>
            simp only [runItems, runItem]
            congr 1
            funext r
            cases r <;> rfl
          | some p => rfl
        | some s =>
          cases p with
          | none => rfl
          | some p => exact writeField_items env s _ p k
  | _ => rfl

theorem writeElemFields_items (env : Env) {o : Bool} {hs : List Handle} (fs : List Field) (vs : List Val) (k : WCont o hs) :
    writeElemFields env fs vs k = runItems env ((fs.zip vs).flatMap fun x =>
      match x.1.kind with
      | .element s => fieldItems s x.1.name.expanded x.2
      | _ => []) k := by
  induction fs generalizing vs with
  | nil => rw [writeElemFields.eq_def]; rfl
  | cons f fs ih =>
    cases vs with
    | nil => rw [writeElemFields.eq_def]; rfl
    | cons v vs =>
      rw [writeElemFields.eq_def]
      simp only [List.zip_cons_cons, List.flatMap_cons]
      cases f.kind with
      | element s =>
        simp only
        rw [runItems_append, writeField_items, ih]
        congr 1
      | _ => simpa using ih vs

theorem writeFlattens_items (env : Env) {o : Bool} {hs : List Handle} (fs : List Field) (vs : List Val) (k : WCont o hs) :
    writeFlattens env fs vs k = runItems env ((fs.zip vs).flatMap fun x =>
      match x.1.kind with
      | .flatten e => variantItems (env.enm e) x.2
      | _ => []) k := by
  induction fs generalizing vs with
  | nil => rw [writeFlattens.eq_def]; rfl
  | cons f fs ih =>
    cases vs with
    | nil => rw [writeFlattens.eq_def]; rfl
    | cons v vs =>
      rw [writeFlattens.eq_def]
      simp only [List.zip_cons_cons, List.flatMap_cons]
      cases f.kind with
      | flatten e =>
        simp only
        rw [runItems_append, writeVariant_items, ih]
        congr 1
      | _ => simpa using ih vs

theorem writeStruct_items (env : Env) {o : Bool} {hs : List Handle} (i : Nat) (vs : List Val) (k : WCont o hs) :
    writeChildren env (.strct i) (.strct vs) k = runItems env (structItems env (env.strct i).fields vs) k := by
  rw [writeChildren.eq_def]
  simp only
  rw [writeElemFields_items, writeFlattens_items, structItems, runItems_append]
  congr 1

/-! ### Well-typed values have a representation -/

theorem shows_cons {env : Env} {it : Item} {l : List Item} {f g : EForest} (h : Shows env [it] f) (h' : Shows env l g) :
    ∃ f', Shows env (it :: l) f' := by
  cases h with
  | unit => exact ⟨_, .unit h'⟩
  | text h => exact ⟨_, .text h h'⟩
  | strct h => exact ⟨_, .strct h h'⟩
  | enm h => exact ⟨_, .enm h h'⟩

theorem shows_all {env : Env} {l : List Item} (h : ∀ it ∈ l, ∃ f, Shows env [it] f) : ∃ f, Shows env l f := by
  induction l with
  | nil => exact ⟨_, .nil⟩
  | cons it l ih =>
    obtain ⟨f, hf⟩ := h it (by simp)
    obtain ⟨g, hg⟩ := ih fun x hx => h x (by simp [hx])
    exact shows_cons hf hg

/-- Items whose values are shown. -/
theorem fieldItems_shows {env : Env} {s : Slot} {name : EName} {v : Val}
    (h : ∀ w ∈ valuesOf s.card v, ∀ n, ∃ f, Shows env [{ name := n, value := some (s.ty, w) }] f) :
    ∀ it ∈ fieldItems s name v, ∃ f, Shows env [it] f := by
  intro it hit
  simp only [fieldItems, List.mem_map] at hit
  obtain ⟨w, hw, rfl⟩ := hit
  exact h w hw name

theorem hasTy_shows {env : Env} {ty : Ty} {v : Val} (h : HasTy env ty v) :
    (∀ n, ∃ f, Shows env [{ name := n, value := some (ty, v) }] f) ∧
      (∀ i, ty = .enm i → ∀ it ∈ variantItems (env.enm i) v, ∃ f, Shows env [it] f) := by
  induction h with
  | text h =>
    obtain ⟨s, hs⟩ := Option.isSome_iff_exists.mp h
    exact ⟨fun n => ⟨_, .text hs .nil⟩, by intro i hi; cases hi⟩
  | @strct i vs len shape elems flats ihe ihf =>
    refine ⟨fun n => ?_, by intro i hi; cases hi⟩
    obtain ⟨g, hg⟩ := shows_all (env := env) (l := structItems env (env.strct i).fields vs) (by
      intro it hit
      simp only [structItems, List.mem_append, List.mem_flatMap] at hit
      rcases hit with ⟨x, hx, hit⟩ | ⟨x, hx, hit⟩
      all_goals
        obtain ⟨p, hp⟩ := List.mem_iff_getElem?.mp hx
        rw [List.getElem?_zip_eq_some] at hp
      · split at hit
        · rename_i s hk
          exact fieldItems_shows (fun w hw => (ihe p _ s _ w hp.1 hp.2 hk hw).1) it hit
        · simp at hit
      · split at hit
        · rename_i e hk
          exact (ihf p _ e _ hp.1 hp.2 hk).2 e rfl it hit
        · simp at hit)
    exact ⟨_, .strct hg .nil⟩
  | @unit i j w hv hs =>
    have : ∀ it ∈ variantItems (env.enm i) (.enm j none), ∃ f, Shows env [it] f := by
      intro it hit
      simp only [variantItems, hv, hs] at hit
      split at hit
      · simp at hit
      · simp only [List.mem_singleton] at hit
        subst hit
        exact ⟨_, .unit .nil⟩
    refine ⟨fun n => ?_, ?_⟩
    · obtain ⟨g, hg⟩ := shows_all this
      exact ⟨_, .enm hg .nil⟩
    · intro i' hi'
      cases hi'
      exact this
  | @payload i j w s p hv hs card items ih =>
    have : ∀ it ∈ variantItems (env.enm i) (.enm j (some p)), ∃ f, Shows env [it] f := by
      intro it hit
      simp only [variantItems, hv, hs] at hit
      split at hit
      · simp at hit
      · exact fieldItems_shows (fun w hw => (ih w hw).1) it hit
    refine ⟨fun n => ?_, ?_⟩
    · obtain ⟨g, hg⟩ := shows_all this
      exact ⟨_, .enm hg .nil⟩
    · intro i' hi'
      cases hi'
      exact this

theorem represents_exists {env : Env} {ty : Ty} {v : Val} (h : HasTy env ty v) (name : EName) :
    ∃ as g, Represents env name ty v as g := by
  obtain ⟨f, hf⟩ := (hasTy_shows h).1 name
  cases hf with
  | text h' r => cases r; exact ⟨_, _, .text h' .nil⟩
  | strct h' r => cases r; exact ⟨_, _, .strct h' .nil⟩
  | enm h' r => cases r; exact ⟨_, _, .enm h' .nil⟩

/-! ### What is asked for -/

theorem asks_andThen (a b : AttrProg) (l : List (EName × String)) :
    AttrProg.asks (a.andThen b) l = (AttrProg.asks a l).bind (AttrProg.asks b) := by
  induction a generalizing l with
  | ret r =>
    cases r with
    | error e => rfl
    | ok u => rfl
  | «namespace» p u k ih => exact ih l
  | «attribute» n v k ih => exact ih _ _

theorem asks_namespaces (ns : List (String × String)) (l : List (EName × String)) : AttrProg.asks (writeNamespaces ns) l = some l := by
  induction ns with
  | nil => rfl
  | cons x ns ih => exact ih

theorem asks_flattenAttrs (env : Env) (fs : List Field) (l : List (EName × String)) :
    AttrProg.asks (writeFlattenAttrs env fs) l = some l := by
  induction fs with
  | nil => rfl
  | cons f fs ih =>
    simp only [writeFlattenAttrs]
    split
    · rw [asks_andThen, asks_namespaces]; exact ih
    · exact ih

theorem asks_attribute (n : EName) (s : String) (l : List (EName × String)) (h : ∀ a ∈ l, a.1 ≠ n) :
    AttrProg.asks (.attribute n s fun r => .ret r) l = some (l ++ [(n, s)]) := by
  have : l.find? (fun a => a.1 == n) = none := by
    rw [List.find?_eq_none]
    intro a ha
    simpa using h a ha
  simp only [AttrProg.asks, addResult, addAttr, this]
  rfl

theorem asks_attr (o : Bool) (t : TextTy) (n : EName) (v : Val) (l : List (EName × String)) (h : ∀ a ∈ l, a.1 ≠ n) :
    AttrProg.asks (writeAttr o t n v) l =
      some (l ++ ((attrText o t v).map fun s => (n, s)).toList) := by
  have key : ∀ tv, AttrProg.asks (match t.toText tv with
      | some s => .attribute n s fun r => .ret r
      | none => .ret (.ok ())) l = some (l ++ ((t.toText tv).map fun s => (n, s)).toList) := by
    intro tv
    cases t.toText tv with
    | none => simp [AttrProg.asks]
    | some s => rw [asks_attribute n s l h]; simp
  have nothing : AttrProg.asks (.ret (.ok ())) l = some (l ++ []) := by simp [AttrProg.asks]
  unfold writeAttr attrText
  cases o with
  | false =>
    cases v with
    | text tv => exact key tv
    | opt w =>
      simp only
      split <;> first | exact nothing | simp_all
    | _ => exact nothing
  | true =>
    cases v with
    | text tv => exact nothing
    | opt w =>
      cases w with
      | none => exact nothing
      | some w =>
        cases w with
        | text tv => exact key tv
        | _ => exact nothing
    | _ => exact nothing

theorem asks_attrFields (fs : List Field) (vs : List Val) (l : List (EName × String))
    (hd : ∀ (p q : Nat) (f g : Field) o t o' t', fs[p]? = some f → fs[q]? = some g →
      f.kind = .attribute o t → g.kind = .attribute o' t' → f.name.expanded = g.name.expanded → p = q)
    (hl : ∀ f o t, f ∈ fs → f.kind = .attribute o t → ∀ a ∈ l, a.1 ≠ f.name.expanded) :
    AttrProg.asks (writeAttrFields fs vs) l = some (l ++ structAttrs fs vs) := by
  induction fs generalizing vs l with
  | nil => cases vs <;> simp [writeAttrFields, AttrProg.asks, structAttrs]
  | cons f fs ih =>
    cases vs with
    | nil => simp [writeAttrFields, AttrProg.asks, structAttrs]
    | cons v vs =>
      have hd' : ∀ (p q : Nat) (f g : Field) o t o' t', fs[p]? = some f → fs[q]? = some g →
          f.kind = .attribute o t → g.kind = .attribute o' t' → f.name.expanded = g.name.expanded → p = q := by
        intro p q g g' o t o' t' h1 h2 h3 h4 h5
        have := hd (p + 1) (q + 1) g g' o t o' t' (by simpa using h1) (by simpa using h2) h3 h4 h5
        omega
      simp only [writeAttrFields]
      cases hk : f.kind with
      | «attribute» o t =>
        simp only
        rw [asks_andThen, asks_attr o t _ v l (hl f o t (by simp) hk)]
        simp only [Option.bind_some]
        rw [ih vs _ hd' ?_]
        · simp only [structAttrs, List.zip_cons_cons, List.filterMap_cons, hk]
          cases attrText o t v <;> simp
        · intro g o' t' hg hk' a ha
          simp only [List.mem_append, Option.mem_toList, Option.map_eq_some_iff] at ha
          rcases ha with ha | ⟨s, _, rfl⟩
          · exact hl g o' t' (by simp [hg]) hk' a ha
          · intro heq
            obtain ⟨p, hp⟩ := List.mem_iff_getElem?.mp hg
            have := hd 0 (p + 1) f g o t o' t' (by simp) (by simpa using hp) hk hk' heq
            omega
      | _ =>
        simp only
        rw [ih vs l hd' fun g o t hg => hl g o t (by simp [hg])]
        simp [structAttrs, hk]

theorem asks_struct (env : Env) (hd : AttrsDistinct env) (i : Nat) (vs : List Val) :
    AttrProg.asks (writeAttributes env (.strct i) (.strct vs)) [] = some (structAttrs (env.strct i).fields vs) := by
  simp only [writeAttributes]
  rw [asks_andThen, asks_namespaces]
  simp only [Option.bind_some]
  rw [asks_andThen, asks_attrFields _ _ _ (hd i) (by simp)]
  simp only [Option.bind_some, List.nil_append]
  exact asks_flattenAttrs _ _ _

theorem asks_embed {hs : List Handle} (a : AttrProg) (k : Except SErr Unit → Prog (.builder :: hs)) (m : EName)
    (l l' : List (EName × String)) (open' : List (EName × List (EName × String))) (h : AttrProg.asks a l = some l') :
    Prog.asks (a.embed k) ((m, l) :: open') = Prog.asks (k (.ok ())) ((m, l') :: open') := by
  induction a generalizing l with
  | ret r =>
    cases r with
    | error e => simp [AttrProg.asks] at h
    | ok u => simp only [AttrProg.asks, Option.some.injEq] at h; subst h; rfl
  | «namespace» p u k' ih => exact ih l h
  | «attribute» n v k' ih =>
    simp only [AttrProg.embed, Prog.asks]
    exact ih _ _ h

/-- Prepend events. -/
def before (es : List EEvent) (x : Option (List EEvent × Except SErr Unit)) : Option (List EEvent × Except SErr Unit) :=
  x.map fun x => (es ++ x.1, x.2)

theorem before_before (a b : List EEvent) (x : Option (List EEvent × Except SErr Unit)) : before a (before b x) = before (a ++ b) x := by
  cases x <;> simp [before]

theorem before_nil (x : Option (List EEvent × Except SErr Unit)) : before [] x = x := by
  cases x <;> simp [before]

theorem asks_writeElem {o : Bool} {hs : List Handle} (name : EName) (attrs : AttrProg)
    (children : WCont true (.writer o :: hs) → Prog (.writer true :: .writer o :: hs)) (k : WCont o hs)
    (open' : List (EName × List (EName × String))) (as : List (EName × String)) (es : List EEvent)
    (ha : AttrProg.asks attrs [] = some as)
    (hc : ∀ k, Prog.asks (children k) open' = before es (Prog.asks (k (.ok ())) open')) :
    Prog.asks (writeElem name attrs children k) open' = before (.start name as :: (es ++ [.stop])) (Prog.asks (k (.ok ())) open') := by
  unfold writeElem
  simp only [Prog.asks]
  rw [asks_embed attrs _ name [] as open' ha]
  simp only [Prog.asks, hc]
  cases Prog.asks (k (.ok ())) open' <;> simp [before]

theorem asks_writeUnit {o : Bool} {hs : List Handle} (name : EName) (k : WCont o hs) (open' : List (EName × List (EName × String))) :
    Prog.asks (writeUnit name k) open' = before [.start name [], .stop] (Prog.asks (k (.ok ())) open') := by
  unfold writeUnit
  simp only [Prog.asks]
  cases Prog.asks (k (.ok ())) open' <;> simp [before]

theorem asks_items (env : Env) (hd : AttrsDistinct env) {l : List Item} {f : EForest} (h : Shows env l f) :
    ∀ {o : Bool} {hs : List Handle} (k : WCont o hs) (open' : List (EName × List (EName × String))),
      Prog.asks (runItems env l k) open' = before f.events (Prog.asks (k (.ok ())) open') := by
  induction h with
  | nil => intro o hs k open'; simp [runItems, EForest.events, before_nil]
  | unit rest ih =>
    intro o hs k open'
    simp only [runItems, runItem]
    rw [asks_writeUnit]
    simp only [WCont.next]
    rw [ih k open', before_before]
    rfl
  | @text n t tv s l f h rest ih =>
    intro o hs k open'
    simp only [runItems, runItem]
    rw [asks_writeElem n _ _ _ open' [] [.chars s] rfl ?_]
    · simp only [WCont.next]
      rw [ih k open', before_before]
      rfl
    · intro k
      rw [writeChildren.eq_def]
      simp only [h, Prog.asks]
      rfl
  | @strct n i vs g l f children rest ihc ih =>
    intro o hs k open'
    simp only [runItems, runItem]
    rw [asks_writeElem n _ _ _ open' _ g.events (asks_struct env hd i vs) ?_]
    · simp only [WCont.next]
      rw [ih k open', before_before]
      simp [EForest.events]
    · intro k
      rw [writeStruct_items]
      exact ihc k open'
  | @enm n i j p g l f children rest ihc ih =>
    intro o hs k open'
    simp only [runItems, runItem]
    rw [asks_writeElem n _ _ _ open' [] g.events (by simp only [writeAttributes]; exact asks_namespaces _ _) ?_]
    · simp only [WCont.next]
      rw [ih k open', before_before]
      simp [EForest.events]
    · intro k
      rw [writeVariant_items]
      exact ihc k open'

/-- The generated code asks for the declared structure. -/
theorem derived_asked (env : Env) (hd : AttrsDistinct env) {name : EName} {ty : Ty} {v : Val} {as : List (EName × String)} {g : EForest}
    (h : Represents env name ty v as g) :
    documentAsked name (writeAttributes env ty v) (writeChildren env ty v .ret) = some (.start name as :: (g.events ++ [.stop])) := by
  have fin : ∀ (a : AttrProg) (c : Prog [.writer false]), AttrProg.asks a [] = some as →
      Prog.asks c [] = before g.events (some ([], .ok ())) →
      documentAsked name a c = some (.start name as :: (g.events ++ [.stop])) := by
    intro a c ha hc
    simp [documentAsked, ha, hc, before]
  cases h with
  | text h r =>
    apply fin
    · rfl
    · rw [writeChildren.eq_def]
      simp only [h, Prog.asks]
      rfl
  | strct h r =>
    apply fin _ _ (asks_struct env hd _ _)
    rw [writeStruct_items]
    exact asks_items env hd h _ _
  | enm h r =>
    apply fin
    · simp only [writeAttributes]; exact asks_namespaces _ _
    · rw [writeVariant_items]
      exact asks_items env hd h _ _

/-! ### Mappings asked for -/

theorem mappings_andThen {M : String → String → Prop} (a b : AttrProg) (ha : AttrProg.Mappings M a) (hb : AttrProg.Mappings M b) :
    AttrProg.Mappings M (a.andThen b) := by
  induction a with
  | ret r =>
    cases r with
    | error e => trivial
    | ok u => exact hb
  | «namespace» p u k ih => exact ⟨ha.1, ih ha.2⟩
  | «attribute» n v k ih => exact fun r => ih r (ha r)

theorem mappings_namespaces {M : String → String → Prop} (l : List (String × String)) (h : ∀ x ∈ l, M x.1 x.2) :
    AttrProg.Mappings M (writeNamespaces l) := by
  induction l with
  | nil => trivial
  | cons x l ih => exact ⟨h x (by simp), ih fun y hy => h y (by simp [hy])⟩

theorem mappings_attr {M : String → String → Prop} (o : Bool) (t : TextTy) (n : EName) (v : Val) :
    AttrProg.Mappings M (writeAttr o t n v) := by
  unfold writeAttr
  simp only
  split
  · split <;> simp [AttrProg.Mappings]
  · split <;> simp [AttrProg.Mappings]
  · trivial

theorem mappings_attrFields {M : String → String → Prop} (fs : List Field) (vs : List Val) :
    AttrProg.Mappings M (writeAttrFields fs vs) := by
  induction fs generalizing vs with
  | nil => cases vs <;> trivial
  | cons f fs ih =>
    cases vs with
    | nil => trivial
    | cons v vs =>
      simp only [writeAttrFields]
      split
      · exact mappings_andThen _ _ (mappings_attr _ _ _ _) (ih vs)
      · exact ih vs

theorem mappings_flattenAttrs {M : String → String → Prop} (env : Env) (h : ∀ ty, ∀ x ∈ declaredNs env ty, M x.1 x.2) (fs : List Field) :
    AttrProg.Mappings M (writeFlattenAttrs env fs) := by
  induction fs with
  | nil => trivial
  | cons f fs ih =>
    simp only [writeFlattenAttrs]
    split
    · rename_i e _
      exact mappings_andThen _ _ (mappings_namespaces _ (h (.enm e))) ih
    · exact ih

theorem mappings_attributes {M : String → String → Prop} (env : Env) (h : ∀ ty, ∀ x ∈ declaredNs env ty, M x.1 x.2) (ty : Ty) (v : Val) :
    AttrProg.Mappings M (writeAttributes env ty v) := by
  unfold writeAttributes
  split
  · rename_i i vs
    exact mappings_andThen _ _ (mappings_namespaces _ (h (.strct i)))
      (mappings_andThen _ _ (mappings_attrFields _ _) (mappings_flattenAttrs env h _))
  · rename_i i
    exact mappings_namespaces _ (h (.enm i))
  · trivial

theorem mappings_embed {M : String → String → Prop} {hs : List Handle} (a : AttrProg) (k : Except SErr Unit → Prog (.builder :: hs))
    (ha : AttrProg.Mappings M a) (hk : ∀ r, Prog.Mappings M (k r)) : Prog.Mappings M (a.embed k) := by
  induction a with
  | ret r => exact hk r
  | «namespace» p u k ih => exact ⟨ha.1, ih ha.2⟩
  | «attribute» n v k ih => exact fun r => ih r (ha r)

theorem mappings_items {M : String → String → Prop} (env : Env) (hM : ∀ ty, ∀ x ∈ declaredNs env ty, M x.1 x.2) {l : List Item} {f : EForest}
    (h : Shows env l f) : ∀ {o : Bool} {hs : List Handle} (k : WCont o hs), (∀ r, Prog.Mappings M (k r)) →
      Prog.Mappings M (runItems env l k) := by
  have next : ∀ {o : Bool} {hs : List Handle} (k : WCont o hs) (p : Prog (.writer o :: hs)), (∀ r, Prog.Mappings M (k r)) →
      Prog.Mappings M p → ∀ r, Prog.Mappings M (k.next p r) := by
    intro o hs k p hk hp r
    cases r with
    | error e => exact hk _
    | ok u => exact hp
  have elem : ∀ {o : Bool} {hs : List Handle} (name : EName) (ty : Ty) (v : Val) (k : WCont o hs), (∀ r, Prog.Mappings M (k r)) →
      (∀ k : WCont true (.writer o :: hs), (∀ r, Prog.Mappings M (k r)) → Prog.Mappings M (writeChildren env ty v k)) →
      Prog.Mappings M (writeElem name (writeAttributes env ty v) (fun k => writeChildren env ty v k) k) := by
    intro o hs name ty v k hk hc
    refine mappings_embed _ _ (mappings_attributes env hM ty v) ?_
    intro r
    cases r with
    | error e => exact hk _
    | ok u =>
      refine ⟨hc _ ?_, fun e => hk _⟩
      intro r
      cases r with
      | error e => exact hk _
      | ok u => exact hk
  induction h with
  | nil => intro o hs k hk; exact hk _
  | unit rest ih =>
    intro o hs k hk
    have := next k _ hk (ih k hk)
    exact ⟨this, fun e => this _⟩
  | @text n t tv s l f h rest ih =>
    intro o hs k hk
    refine elem n _ _ _ (next k _ hk (ih k hk)) ?_
    intro k hk
    rw [writeChildren.eq_def]
    simp only [h]
    exact hk
  | strct children rest ihc ih =>
    intro o hs k hk
    refine elem _ _ _ _ (next k _ hk (ih k hk)) ?_
    intro k hk
    rw [writeStruct_items]
    exact ihc k hk
  | enm children rest ihc ih =>
    intro o hs k hk
    refine elem _ _ _ _ (next k _ hk (ih k hk)) ?_
    intro k hk
    rw [writeVariant_items]
    exact ihc k hk

theorem mappings_children {M : String → String → Prop} (env : Env) (hM : ∀ ty, ∀ x ∈ declaredNs env ty, M x.1 x.2) {name : EName} {ty : Ty} {v : Val}
    {as : List (EName × String)} {g : EForest} (h : Represents env name ty v as g) :
    Prog.Mappings M (writeChildren env ty v .ret) := by
  cases h with
  | text h r => rw [writeChildren.eq_def]; simp only [h]; exact fun _ => trivial
  | strct h r => rw [writeStruct_items]; exact mappings_items env hM h _ fun _ => trivial
  | enm h r => rw [writeVariant_items]; exact mappings_items env hM h _ fun _ => trivial

end SX
