import Verif.Spec.AnyElement
import Verif.Proof.DeriveSerTotal
import Verif.Proof.Reader
import Verif.Proof.RoundTrip

/- An implementation of the traits for any element, as a witness for C92. -/
namespace SX.Any
open Spec

/-! ### Reading -/

/-- Attributes and content so far. -/
abbrev St := List (EName × String) × EForest

def visitor : Visitor St where
  onAttr v n s := .ok ((v.1 ++ [(n, s)], v.2), .ok ())
  onChars v s _ := .ok ((v.1, v.2.append (.chars s .nil)), .ok ())
  onElem v info := .readTo ([], .nil) fun sub r =>
    match r with
    | .ok _ => .ok ((v.1, v.2.append (.elem info.name.expanded sub.1 sub.2 .nil)), .ok ())
    | .error e => .ok (v, .error e)

def deser : Deser St AnyElement := fun info => .readTo ([], .nil) fun sub r =>
  match r with
  | .ok _ => .ok (.ok { name := info.name.expanded, attrs := sub.1, content := sub.2 })
  | .error e => .ok (.error e)

theorem visitor_noSwallow : NoSwallow visitor := by
  intro v info sub e v' h
  simp at h

theorem deser_noSwallow : DeserNoSwallow deser := by
  intro info sub e a h
  simp at h

theorem append_assoc (a b c : EForest) : (a.append b).append c = a.append (b.append c) := by
  induction a with
  | nil => rfl
  | elem n as c rest _ ih => simp only [EForest.append, ih]
  | chars s rest ih => simp only [EForest.append, ih]

theorem append_nil (a : EForest) : a.append .nil = a := by
  induction a with
  | nil => rfl
  | elem n as c rest _ ih => simp only [EForest.append, ih]
  | chars s rest ih => simp only [EForest.append, ih]

theorem attributes_all (here : List StackElem) (pos : Pos) (as : List XAttr) (v : St) :
    attributes visitor here pos as v = .ok ((v.1 ++ as.map (fun a => (a.name.expanded, a.value)), v.2), .ok ()) := by
  induction as generalizing v with
  | nil => simp [attributes]
  | cons a as ih =>
    simp only [attributes, visitor] at ih ⊢
    rw [ih]
    simp

theorem content_all (path : List StackElem) (F : Forest) (v : St) : content visitor path F v = .ok ((v.1, v.2.append F.whole), .ok ()) := by
  induction F generalizing path v with
  | nil => simp [content, Forest.whole, append_nil]
  | misc m pos rest ih => simp only [content, Forest.whole]; exact ih path v
  | chars s c pos rest ih =>
    simp only [content, Forest.whole]
    have : visitor.onChars v s pos = .ok ((v.1, v.2.append (.chars s .nil)), .ok ()) := rfl
    rw [this]
    dsimp only
    rw [ih, append_assoc]
    rfl
  | elem name attrs ns pos children endPos rest ih1 ih2 =>
    simp only [content, Forest.whole]
    have : ∀ info : ElemInfo, visitor.onElem v info = .readTo ([], .nil) fun sub r =>
      match r with
      | .ok _ => .ok ((v.1, v.2.append (.elem info.name.expanded sub.1 sub.2 .nil)), .ok ())
      | .error e => .ok (v, .error e) := fun _ => rfl
    rw [this]
    dsimp only
    rw [attributes_all]
    dsimp only
    rw [ih1]
    dsimp only
    rw [ih2, append_assoc]
    rfl

theorem readDoc_all (d : Doc) : readDoc visitor deser d = .ok (.ok d.whole) := by
  simp only [readDoc, Spec.deser, deser]
  rw [attributes_all]
  dsimp only
  rw [content_all]
  rfl

/-! ### Writing -/

/-- The namespaces of an element's name and attributes that need a mapping. -/
def used (n : EName) (as : List (EName × String)) : List String :=
  (n.ns :: as.map fun a => a.1.ns).filter fun u => u != "" && u != xmlNs

def attrList : List (EName × String) → AttrProg
  | [] => .ret (.ok ())
  | a :: l => .attribute a.1 a.2 fun r =>
    match r with
    | .ok () => attrList l
    | .error e => .ret (.error e)

def attrs (n : EName) (as : List (EName × String)) : AttrProg :=
  (writeNamespaces ((used n as).map fun u => ("n", u))).andThen (attrList as)

def forest : EForest → {o : Bool} → {hs : List Handle} → WCont o hs → Prog (.writer o :: hs)
  | .nil, _, _, k => k (.ok ())
  | .chars s rest, _, _, k => .text s fun r =>
    match r with
    | .error e => k (.error e)
    | .ok () => forest rest k
  | .elem n as c rest, _, _, k => writeElem n (attrs n as) (fun k => forest c k) fun r =>
    match r with
    | .error e => k (.error e)
    | .ok () => forest rest k

theorem asks_attrList (as l : List (EName × String)) (h : ((l ++ as).map Prod.fst).Nodup) : AttrProg.asks (attrList as) l = some (l ++ as) := by
  induction as generalizing l with
  | nil => simp [attrList, AttrProg.asks]
  | cons a as ih =>
    have hf : l.find? (fun b => b.1 == a.1) = none := by
      rw [List.find?_eq_none]
      intro b hb
      simp only [beq_iff_eq]
      intro he
      rw [List.map_append, List.nodup_append] at h
      exact h.2.2 _ (List.mem_map_of_mem hb) _ (by simp) he
    simp only [attrList, AttrProg.asks, addResult, addAttr, hf]
    have := ih (l ++ [a]) (by simpa using h)
    simpa using this

theorem asks_attrs (n : EName) (as : List (EName × String)) (h : (as.map Prod.fst).Nodup) : AttrProg.asks (attrs n as) [] = some as := by
  rw [attrs, asks_andThen, asks_namespaces]
  exact asks_attrList as [] (by simpa using h)

theorem asks_forest (f : EForest) (hf : f.AttrsOnce) {o : Bool} {hs : List Handle} (k : WCont o hs) (open' : List (EName × List (EName × String))) :
    Prog.asks (forest f k) open' = before f.events (Prog.asks (k (.ok ())) open') := by
  induction f generalizing o hs with
  | nil => simp [forest, EForest.events, before_nil]
  | chars s rest ih =>
    simp only [forest, Prog.asks, EForest.events]
    rw [ih hf]
    cases Prog.asks (k (.ok ())) open' <;> simp [before]
  | elem n as c rest ih1 ih2 =>
    simp only [forest, EForest.events]
    rw [asks_writeElem n (attrs n as) _ _ open' as c.events (asks_attrs n as hf.1) (fun k => ih1 hf.2.1 k)]
    dsimp only
    rw [ih2 hf.2.2, before_before]
    simp

theorem noForget_forest (f : EForest) {o : Bool} {hs : List Handle} (k : WCont o hs) (hk : ∀ r, NoForget (k r)) : NoForget (forest f k) := by
  induction f generalizing o hs with
  | nil => exact hk _
  | chars s rest ih =>
    intro r
    cases r with
    | error e => exact hk _
    | ok u => exact ih k hk
  | elem n as c rest ih1 ih2 =>
    have hn : ∀ r, NoForget ((fun r => match r with | .error e => k (.error e) | .ok () => forest rest k : WCont o hs) r) := by
      intro r
      cases r with
      | error e => exact hk _
      | ok u => exact ih2 k hk
    refine noForget_embed _ _ ?_
    intro r
    cases r with
    | error e => exact hk _
    | ok u =>
      refine ⟨ih1 _ ?_, fun e => hn (.error e)⟩
      intro r
      cases r with
      | error e => exact hk _
      | ok u => exact hn

theorem declared_attrList (as : List (EName × String)) (n : EName) (i r : List String) (d : Bool) (K : HScope → Prop)
    (h : ∀ a ∈ as, a.1.ns = "" ∨ a.1.ns = xmlNs ∨ a.1.ns ∈ r) (hK : K (.builder n i r d)) : AttrProg.Declared (attrList as) (.builder n i r d) K := by
  induction as with
  | nil => exact hK
  | cons a as ih =>
    refine ⟨?_, ?_⟩
    · rcases h a (by simp) with h | h | h
      · exact .inl h
      · exact .inr (.inl h)
      · exact .inr (.inr (.inr h))
    · intro res
      cases res with
      | error e => trivial
      | ok u => exact ih fun b hb => h b (by simp [hb])

theorem used_name (n : EName) (as : List (EName × String)) : n.ns = "" ∨ n.ns = xmlNs ∨ n.ns ∈ used n as := by
  by_cases h1 : n.ns = ""
  · exact .inl h1
  by_cases h2 : n.ns = xmlNs
  · exact .inr (.inl h2)
  exact .inr (.inr (by simp [used, h1, h2]))

theorem used_attr (n : EName) (as : List (EName × String)) (a : EName × String) (ha : a ∈ as) : a.1.ns = "" ∨ a.1.ns = xmlNs ∨ a.1.ns ∈ used n as := by
  by_cases h1 : a.1.ns = ""
  · exact .inl h1
  by_cases h2 : a.1.ns = xmlNs
  · exact .inr (.inl h2)
  refine .inr (.inr ?_)
  simp only [used, List.mem_filter, List.mem_cons, List.mem_map]
  exact ⟨.inr ⟨a, ha, rfl⟩, by simp [h1, h2]⟩

theorem declared_attrs (n : EName) (as : List (EName × String)) (i r : List String) (K : HScope → Prop)
    (hK : ∀ r', MayStart n r' false → K (.builder n i r' false)) : AttrProg.Declared (attrs n as) (.builder n i r false) K := by
  refine declared_andThen _ _ _ _ ?_
  have hu : ∀ u ∈ used n as, u ∈ urls ((used n as).map fun u => ("n", u)) := by
    intro u hu
    simp only [urls, List.map_map, List.mem_map]
    exact ⟨u, hu, rfl⟩
  refine declared_namespaces _ ?_ _ _ _ _ _ ?_
  · intro x hx
    obtain ⟨u, hu, rfl⟩ := List.mem_map.mp hx
    simp only [used, List.mem_filter, Bool.and_eq_true, bne_iff_ne, ne_eq] at hu
    exact ⟨by show List.take 3 "n".toList ≠ _; decide, hu.2.1, hu.2.2⟩
  · intro r' hr'
    have hd : (false || ((used n as).map fun u => ("n", u)).any fun x => x.1 == "") = false := by
      simp
    rw [hd]
    refine declared_attrList as n i r' false K ?_ (hK r' ?_)
    · intro a ha
      rcases used_attr n as a ha with h | h | h
      · exact .inl h
      · exact .inr (.inl h)
      · exact .inr (.inr (hr' _ (.inr (hu _ h))))
    · rcases used_name n as with h | h | h
      · exact .inr (.inr ⟨h, rfl⟩)
      · exact .inl h
      · exact .inr (.inl (hr' _ (.inr (hu _ h))))

theorem declared_forest (f : EForest) {o : Bool} {hs : List Handle} (k : WCont o hs) (sc : List String) (st : List HScope)
    (hk : ∀ r, Prog.Declared (k r) (.writer sc false :: st)) : Prog.Declared (forest f k) (.writer sc false :: st) := by
  induction f generalizing o hs sc st with
  | nil => exact hk _
  | chars s rest ih =>
    intro r
    cases r with
    | error e => exact hk _
    | ok u => exact ih k sc st hk
  | elem n as c rest ih1 ih2 =>
    have hn : ∀ r, Prog.Declared ((fun r => match r with | .error e => k (.error e) | .ok () => forest rest k : WCont o hs) r) (.writer sc false :: st) := by
      intro r
      cases r with
      | error e => exact hk _
      | ok u => exact ih2 k sc st hk
    simp only [forest, writeElem, Prog.Declared]
    refine declared_embed _ _ _ _ _ _ _ (fun e sc' => hk _) ?_
    refine declared_attrs n as _ _ _ ?_
    intro r' hs'
    refine ⟨hs', ih1 _ _ _ ?_, fun e => hk _⟩
    intro res
    cases res with
    | error e => exact hk _
    | ok u => exact hn

theorem document_declared (e : AnyElement) : DocumentDeclared e.name (attrs e.name e.attrs) (forest e.content .ret) :=
  declared_attrs e.name e.attrs [] [] _ fun _ h => ⟨h, declared_forest e.content _ _ _ fun _ => trivial⟩

theorem document_asked (e : AnyElement) (h : e.AttrsOnce) : documentAsked e.name (attrs e.name e.attrs) (forest e.content .ret) = some e.events := by
  have h1 := asks_forest e.content h.2 (o := false) (hs := []) .ret []
  simp [documentAsked, asks_attrs _ _ h.1, h1, before, Prog.asks, AnyElement.events]

/-! ### Both -/

theorem denotes_whole {f : EForest} {F : Forest} (h : Denotes f F) : F.whole = f.visible := by
  induction h with
  | nil => rfl
  | elem hn ha hc hr ih1 ih2 => simp only [Forest.whole, EForest.visible, hn, ha, ih1, ih2]
  | chars hs hr ih => simp only [Forest.whole, EForest.visible, hs, if_false, ih]
  | blank hs hr ih => simp only [EForest.visible, hs, if_true, ih]
  | misc h ih => simp only [Forest.whole, ih]

end SX.Any
