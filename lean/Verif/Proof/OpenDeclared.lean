import Verif.Spec.OpenDeclared
import Verif.Proof.OpenSer
import Verif.Proof.DeriveSerTotal

/-
A derived serializer declares the namespaces that are used, if the implementations for the types of its fields do.
-/
namespace SX.Open
open SX.Spec SX.Spec.Open

theorem declared_lend {o : Bool} {hs : List Handle} (k : WCont o hs) (w : HScope) (outer : List HScope) (hk : ∀ r, Prog.Declared (k r) (w :: outer))
    {l : List Handle} (p : Prog l) :
    ∀ {m : List Handle} (b : Lent o hs l m) (own : List HScope), own.length + 1 = l.length → Prog.Declared p (own ++ [w]) →
      Prog.Declared (lend k p b) (own ++ w :: outer) := by
  induction p with
  | ret r =>
    intro m b own ho _
    cases b with
    | base =>
      cases own with
      | nil => exact hk r
      | cons a own => simp at ho
    | up h b => exact nomatch b
  | element name p ih =>
    intro m b own ho hp
    have key : ∀ {m'} (o2 : Bool) (b' : Lent o hs _ (.writer o2 :: m')), Prog.Declared (lend k (.element name p) b') (own ++ w :: outer) := by
      intro m' o2 b'
      rw [lend_element]
      cases own with
      | nil =>
        cases w with
        | builder => exact absurd hp (by simp [Prog.Declared])
        | writer sc d => exact ih (.up _ b') [_] (by simpa using ho) hp
      | cons a own =>
        cases a with
        | builder => exact absurd hp (by simp [Prog.Declared])
        | writer sc d => exact ih (.up _ b') (_ :: _ :: own) (by simpa using ho) hp
    cases b with
    | base => exact key _ _
    | up h b => exact key _ _
  | text t p ih =>
    intro m b own ho hp
    cases b with
    | base => rw [lend_text]; exact fun r => ih r .base own ho (hp r)
    | up h b => rw [lend_text]; exact fun r => ih r (.up _ b) own ho (hp r)
  | «namespace» q u p ih =>
    intro m b own ho hp
    cases b with
    | up h b =>
      cases own with
      | nil => cases b <;> simp at ho
      | cons a own =>
        cases a with
        | writer => exact absurd hp (by simp [Prog.Declared])
        | builder n i r d => exact ⟨hp.1, ih (.up _ b) (_ :: own) ho hp.2⟩
  | «attribute» n v p ih =>
    intro m b own ho hp
    cases b with
    | up h b =>
      cases own with
      | nil => cases b <;> simp at ho
      | cons a own =>
        cases a with
        | writer => exact absurd hp (by simp [Prog.Declared])
        | builder n i r d => exact ⟨hp.1, fun res => ih res (.up _ b) (_ :: own) ho (hp.2 res)⟩
  | start ok fail ih1 ih2 =>
    intro m b own ho hp
    cases b with
    | up h b =>
      cases own with
      | nil => cases b <;> simp at ho
      | cons a own =>
        cases a with
        | writer => exact absurd hp (by simp [Prog.Declared])
        | builder n i r d =>
          exact ⟨hp.1, ih1 (.up _ b) (_ :: own) (by simpa using ho) hp.2.1, fun e => ih2 e b own (by simpa using ho) (hp.2.2 e)⟩
  | finish p ih =>
    intro m b own ho hp
    cases b with
    | up h b =>
      cases own with
      | nil => cases b <;> simp at ho
      | cons a own => exact fun r => ih r b own (by simpa using ho) (hp r)
  | dropBuilder p ih =>
    intro m b own ho hp
    cases b with
    | up h b =>
      cases own with
      | nil => cases b <;> simp at ho
      | cons a own => exact ih b own (by simpa using ho) hp
  | dropWriter p ih =>
    intro m b own ho hp
    cases b with
    | up h b =>
      cases own with
      | nil => cases b <;> simp at ho
      | cons a own => exact ih b own (by simpa using ho) hp
  | forgetBuilder p ih =>
    intro m b own ho hp
    cases b with
    | up h b =>
      cases own with
      | nil => cases b <;> simp at ho
      | cons a own => exact ih b own (by simpa using ho) hp
  | forgetWriter p ih =>
    intro m b own ho hp
    cases b with
    | up h b =>
      cases own with
      | nil => cases b <;> simp at ho
      | cons a own => exact ih b own (by simpa using ho) hp

theorem declared_then {p q : Prog [.writer false]} {sc : HScope} (hp : Prog.Declared p [sc]) (hq : Prog.Declared q [sc]) :
    Prog.Declared (andThen p q) [sc] :=
  declared_lend _ sc [] (fun r => by cases r with | error e => exact trivial | ok u => exact hq) p .base [] rfl hp

theorem declared_mono {K K' : HScope → Prop} (hK : ∀ sc, K sc → K' sc) (a : AttrProg) (sc : HScope) (h : AttrProg.Declared a sc K) :
    AttrProg.Declared a sc K' := by
  induction a generalizing sc with
  | ret r =>
    cases r with
    | error e => trivial
    | ok u => exact hK _ h
  | «namespace» p u a ih =>
    cases sc with
    | writer => exact absurd h (by simp [AttrProg.Declared])
    | builder n i r d => exact ⟨h.1, ih _ h.2⟩
  | «attribute» n v a ih =>
    cases sc with
    | writer => exact absurd h (by simp [AttrProg.Declared])
    | builder n i r d => exact ⟨h.1, fun res => ih res _ (h.2 res)⟩

theorem declared_fieldOne {w : Ser} {name : EName} {mapped : List String} {dflt : Bool} (h : ChildDeclared name w mapped dflt) :
    Prog.Declared (fieldOne w name) [.writer mapped dflt] := by
  refine declared_embed _ _ _ _ _ _ _ (fun e sc => trivial) ?_
  refine declared_mono ?_ _ _ h
  intro sc hsc
  cases sc with
  | writer => exact hsc.elim
  | builder n i r d =>
    refine ⟨hsc.1, ?_, fun e => trivial⟩
    exact declared_lend _ (.writer r d) [.writer mapped dflt] (fun res => by cases res with | error e => exact trivial | ok u => exact fun _ => trivial)
      w.children .base [] rfl hsc.2

theorem declared_fieldVec {ws : List Ser} {name : EName} {mapped : List String} {dflt : Bool} (h : ∀ w ∈ ws, ChildDeclared name w mapped dflt) :
    Prog.Declared (fieldVec ws name) [.writer mapped dflt] := by
  induction ws with
  | nil => trivial
  | cons w ws ih => exact declared_then (declared_fieldOne (h w (by simp))) (ih fun w hw => h w (by simp [hw]))

theorem inTurnDeclared_append (l l' : List AttrProg) (sc : HScope) (K : HScope → Prop) :
    InTurnDeclared (l ++ l') sc K = InTurnDeclared l sc fun sc => InTurnDeclared l' sc K := by
  induction l generalizing sc with
  | nil => rfl
  | cons a l ih => simp only [List.cons_append, InTurnDeclared, ih]

theorem declared_attributes (fields : List SField) (sc : HScope) (K : HScope → Prop) (h : InTurnDeclared (attributesOf fields) sc K) :
    AttrProg.Declared (attrFields fields) sc K := by
  induction fields generalizing sc with
  | nil => exact h
  | cons f fs ih =>
    obtain ⟨nm, k⟩ := f
    cases k with
    | «attribute» w => exact declared_andThen _ _ _ _ (declared_mono (fun sc hs => ih sc hs) _ _ h)
    | element w => exact ih sc h
    | flatten w => exact ih sc h
    | text => exact ih sc h

theorem declared_flattens (fields : List SField) (sc : HScope) (K : HScope → Prop) (h : InTurnDeclared ((flattenedOf fields).map Ser.attrs) sc K) :
    AttrProg.Declared (flattenAttrs fields) sc K := by
  induction fields generalizing sc with
  | nil => exact h
  | cons f fs ih =>
    obtain ⟨nm, k⟩ := f
    cases k with
    | flatten w => exact declared_andThen _ _ _ _ (declared_mono (fun sc hs => ih sc hs) _ _ h)
    | element w => exact ih sc h
    | «attribute» w => exact ih sc h
    | text => exact ih sc h

theorem declared_elements (fields : List SField) (sc : HScope) (k : Prog [.writer false]) (hk : Prog.Declared k [sc])
    (h : ∀ p ∈ elementsOf fields, Prog.Declared p [sc]) : Prog.Declared (elemFields fields k) [sc] := by
  induction fields with
  | nil => exact hk
  | cons f fs ih =>
    obtain ⟨nm, kd⟩ := f
    cases kd with
    | element w => exact declared_then (h _ List.mem_cons_self) (ih fun p hp => h p (List.mem_cons_of_mem _ hp))
    | flatten w => exact ih h
    | «attribute» w => exact ih h
    | text => exact ih h

theorem declared_contents (fields : List SField) (sc : HScope) (h : ∀ v ∈ flattenedOf fields, Prog.Declared v.children [sc]) :
    Prog.Declared (flattens fields) [sc] := by
  induction fields with
  | nil => trivial
  | cons f fs ih =>
    obtain ⟨nm, kd⟩ := f
    cases kd with
    | flatten w => exact declared_then (h _ List.mem_cons_self) (ih fun p hp => h p (List.mem_cons_of_mem _ hp))
    | element w => exact ih h
    | «attribute» w => exact ih h
    | text => exact ih h

theorem declared_mappings (l : List (String × String)) (hl : ∀ x ∈ l, MayDeclare x.1 x.2) (n : EName) (i r : List String) (d : Bool)
    (K : HScope → Prop) (h : K (.builder n i ((l.map Prod.snd).reverse ++ r) (d || l.any fun x => x.1 == ""))) :
    AttrProg.Declared (writeNamespaces l) (.builder n i r d) K := by
  induction l generalizing r d with
  | nil => simpa [writeNamespaces, AttrProg.Declared] using h
  | cons x l ih =>
    refine ⟨hl x (by simp), ih (fun y hy => hl y (by simp [hy])) _ _ ?_⟩
    simpa [Bool.or_assoc] using h

theorem declared_structSer (name : EName) (ns : List (String × String)) (fields : List SField) (inherited required : List String) (dflt : Bool)
    (hns : ∀ m ∈ ns, MayDeclare m.1 m.2)
    (h : InTurnDeclared (attributesOf fields ++ (flattenedOf fields).map Ser.attrs)
      (.builder name inherited ((ns.map Prod.snd).reverse ++ required) (dflt || ns.any fun m => m.1 == "")) fun sc =>
        match sc with
        | .builder n _ r d => MayStart n r d ∧ ∀ p ∈ elementsOf fields ++ (flattenedOf fields).map Ser.children, Prog.Declared p [.writer r d]
        | .writer _ _ => False) :
    SerDeclared name (structSer ns fields) inherited required dflt := by
  unfold SerDeclared structSer
  refine declared_andThen _ _ _ _ (declared_mappings ns hns _ _ _ _ _ (declared_andThen _ _ _ _ (declared_attributes _ _ _ ?_)))
  rw [inTurnDeclared_append] at h
  have mono : ∀ (l : List AttrProg) (sc : HScope) (K K' : HScope → Prop), (∀ sc, K sc → K' sc) → InTurnDeclared l sc K → InTurnDeclared l sc K' := by
    intro l
    induction l with
    | nil => exact fun sc K K' hK h => hK _ h
    | cons a l ih => exact fun sc K K' hK h => declared_mono (fun sc h => ih sc K K' hK h) _ _ h
  refine mono _ _ _ _ (fun sc hs => declared_flattens _ _ _ (mono _ _ _ _ ?_ hs)) h
  intro sc hs
  cases sc with
  | writer => exact hs.elim
  | builder n i r d =>
    refine ⟨hs.1, declared_elements _ _ _ (declared_contents _ _ fun v hv => hs.2 _ ?_) fun p hp => hs.2 p (by simp [hp])⟩
    simp only [List.mem_append, List.mem_map]
    exact .inr ⟨v, hv, rfl⟩

theorem declared_enumSer (name : EName) (ns : List (String × String)) (v : SVariant) (inherited required : List String) (dflt : Bool)
    (hns : ∀ m ∈ ns, MayDeclare m.1 m.2) (hs : MayStart name ((ns.map Prod.snd).reverse ++ required) (dflt || ns.any fun m => m.1 == ""))
    (h : match v with
      | .unit n => ChildDeclared n.expanded ⟨.ret (.ok ()), .ret (.ok ())⟩ ((ns.map Prod.snd).reverse ++ required) (dflt || ns.any fun m => m.1 == "")
      | .payload n w => Prog.Declared (w n.expanded) [.writer ((ns.map Prod.snd).reverse ++ required) (dflt || ns.any fun m => m.1 == "")]
      | .skipped => True) :
    SerDeclared name (enumSer ns v) inherited required dflt := by
  refine declared_mappings ns hns _ _ _ _ _ ⟨hs, ?_⟩
  cases v with
  | unit n =>
    refine declared_then ?_ trivial
    exact ⟨h.1, fun _ => trivial, fun _ => trivial⟩
  | payload n w => exact declared_then h trivial
  | skipped => trivial

end SX.Open
