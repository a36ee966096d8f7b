import Verif.Spec.OpenRound
import Verif.Proof.OpenSer
import Verif.Proof.OpenBlanket
import Verif.Spec.Errors
import Verif.Proof.RoundTrip

/-
A derived type reads back what it wrote, if the types of its fields do.
-/
namespace SX.Open
open SX.Spec SX.Spec.Open

variable {σ τ α β : Type}

/-! ### What is asked for -/

/-- The number of builders. -/
def builders : List Handle → Nat
  | [] => 0
  | .builder :: l => builders l + 1
  | .writer _ :: l => builders l

theorem asks_lend {o : Bool} {hs : List Handle} (k : WCont o hs) (outer : List (EName × List (EName × String))) {l : List Handle} (p : Prog l) :
    ∀ {m : List Handle} (b : Lent o hs l m) (own : List (EName × List (EName × String))), own.length = builders l →
      Prog.asks (lend k p b) (own ++ outer) = (Prog.asks p own).bind fun x => before x.1 (Prog.asks (k x.2) outer) := by
  induction p with
  | ret r =>
    intro m b own ho
    cases b with
    | base =>
      cases own with
      | nil => simp [lend, Prog.asks, before_nil]
      | cons a own => simp [builders] at ho
    | up h b => exact nomatch b
  | element name p ih =>
    intro m b own ho
    have key : ∀ {m'} (b' : Lent o hs _ m'), Prog.asks (lend k p b') (((name, []) :: own) ++ outer) = _ :=
      fun b' => ih b' ((name, []) :: own) (by simpa [builders] using ho)
    cases b with
    | base => rw [lend_element]; exact key _
    | up h b => rw [lend_element]; exact key _
  | text t p ih =>
    intro m b own ho
    have key : ∀ {m'} (b' : Lent o hs _ m'), (Prog.asks (lend k (p (.ok ())) b') (own ++ outer)).map (fun x => (EEvent.chars t :: x.1, x.2)) =
        (Prog.asks (Prog.text t p) own).bind fun x => before x.1 (Prog.asks (k x.2) outer) := by
      intro m' b'
      rw [ih (.ok ()) b' own ho]
      simp only [Prog.asks]
      cases Prog.asks (p (.ok ())) own with
      | none => rfl
      | some x => cases hk : Prog.asks (k x.2) outer <;> simp [before, hk]
    cases b with
    | base => rw [lend_text]; exact key _
    | up h b => rw [lend_text]; exact key _
  | «namespace» q u p ih =>
    intro m b own ho
    cases b with
    | up h b => exact ih (.up _ b) own ho
  | «attribute» n v p ih =>
    intro m b own ho
    cases b with
    | up h b =>
      cases own with
      | nil => simp [builders] at ho
      | cons a own => exact ih _ (.up _ b) ((a.1, addAttr a.2 n v) :: own) ho
  | start ok fail ih1 ih2 =>
    intro m b own ho
    cases b with
    | up h b =>
      cases own with
      | nil => simp [builders] at ho
      | cons a own =>
        show (Prog.asks (lend k ok (.up _ b)) (own ++ outer)).map _ = _
        rw [ih1 (.up _ b) own (by simpa [builders] using ho)]
        simp only [Prog.asks]
        cases Prog.asks ok own with
        | none => rfl
        | some x => cases hk : Prog.asks (k x.2) outer <;> simp [before, hk]
  | finish p ih =>
    intro m b own ho
    cases b with
    | up h b =>
      show (Prog.asks (lend k (p (.ok ())) b) (own ++ outer)).map _ = _
      rw [ih (.ok ()) b own (by simpa [builders] using ho)]
      simp only [Prog.asks]
      cases Prog.asks (p (.ok ())) own with
      | none => rfl
      | some x => cases hk : Prog.asks (k x.2) outer <;> simp [before, hk]
  | dropBuilder p ih =>
    intro m b own ho
    cases b with
    | up h b => rfl
  | dropWriter p ih =>
    intro m b own ho
    cases b with
    | up h b => rfl
  | forgetBuilder p ih =>
    intro m b own ho
    cases b with
    | up h b =>
      cases own with
      | nil => simp [builders] at ho
      | cons a own => exact ih b own (by simpa [builders] using ho)
  | forgetWriter p ih =>
    intro m b own ho
    cases b with
    | up h b => exact ih b own (by simpa [builders] using ho)

theorem asks_then {p q : Prog [.writer false]} {es es' : List EEvent} {r : Except SErr Unit} (hp : Prog.asks p [] = some (es, .ok ()))
    (hq : Prog.asks q [] = some (es', r)) : Prog.asks (andThen p q) [] = some (es ++ es', r) := by
  have := asks_lend (o := false) (hs := []) (fun r => match r with | .error e => .ret (.error e) | .ok () => q) [] p .base [] rfl
  simp only [List.append_nil, hp, Option.bind_some, hq, before, Option.map_some] at this
  exact this

theorem asks_fieldOne {v : Ser} {name : EName} {as : List (EName × String)} {g : EForest} (ha : AttrProg.asks v.attrs [] = some as)
    (hc : Prog.asks v.children [] = some (g.events, .ok ())) :
    Prog.asks (fieldOne v name) [] = some ((EForest.elem name as g .nil).events, .ok ()) := by
  unfold fieldOne
  rw [asks_writeElem name v.attrs _ _ [] as g.events ha]
  · simp [before, Prog.asks, EForest.events]
  · intro k
    have := asks_lend k [] v.children .base [] rfl
    simpa [hc] using this

/-! ### Forests -/

theorem events_append (f g : EForest) : (f.append g).events = f.events ++ g.events := by
  induction f with
  | nil => rfl
  | elem n a c rest ihc ih => simp [EForest.append, EForest.events, ih]
  | chars s rest ih => simp [EForest.append, EForest.events, ih]

theorem denotes_append {f g : EForest} {F : Forest} (h : Denotes (f.append g) F) : ∃ F1 F2, F = F1.append F2 ∧ Denotes f F1 ∧ Denotes g F2 := by
  generalize he : f.append g = e at h
  induction h generalizing f with
  | nil =>
    cases f with
    | nil => simp only [EForest.append] at he; subst he; exact ⟨.nil, .nil, rfl, .nil, .nil⟩
    | elem => simp [EForest.append] at he
    | chars => simp [EForest.append] at he
  | @elem n as c rest q attrs ns pos endPos c' rest' hn ha hc hr ihc ih =>
    cases f with
    | nil =>
      simp only [EForest.append] at he
      subst he
      exact ⟨.nil, _, rfl, .nil, .elem hn ha hc hr⟩
    | elem m as' c2 rest2 =>
      simp only [EForest.append, EForest.elem.injEq] at he
      obtain ⟨rfl, rfl, rfl, he⟩ := he
      obtain ⟨F1, F2, rfl, h1, h2⟩ := ih he
      exact ⟨.elem q attrs ns pos c' endPos F1, F2, rfl, .elem hn ha hc h1, h2⟩
    | chars => simp [EForest.append] at he
  | @chars s rest cdata pos rest' hs hr ih =>
    cases f with
    | nil =>
      simp only [EForest.append] at he
      subst he
      exact ⟨.nil, _, rfl, .nil, .chars hs hr⟩
    | elem => simp [EForest.append] at he
    | chars s2 rest2 =>
      simp only [EForest.append, EForest.chars.injEq] at he
      obtain ⟨rfl, he⟩ := he
      obtain ⟨F1, F2, rfl, h1, h2⟩ := ih he
      exact ⟨.chars _ cdata pos F1, F2, rfl, .chars hs h1, h2⟩
  | @blank s rest rest' hs hr ih =>
    cases f with
    | nil =>
      simp only [EForest.append] at he
      subst he
      exact ⟨.nil, _, rfl, .nil, .blank hs hr⟩
    | elem => simp [EForest.append] at he
    | chars s2 rest2 =>
      simp only [EForest.append, EForest.chars.injEq] at he
      obtain ⟨rfl, he⟩ := he
      obtain ⟨F1, F2, rfl, h1, h2⟩ := ih he
      exact ⟨F1, F2, rfl, .blank hs h1, h2⟩
  | @misc f' m pos F h ih =>
    obtain ⟨F1, F2, rfl, h1, h2⟩ := ih he
    exact ⟨.misc m pos F1, F2, rfl, .misc h1, h2⟩

theorem forest_children_append (f g : Forest) : (f.append g).children = f.children ++ g.children := by
  induction f with
  | nil => rfl
  | elem n a ns pos ch ep rest _ ih => simp [Forest.append, Forest.children, ih]
  | chars s cd pos rest ih => simpa [Forest.append, Forest.children] using ih
  | misc m pos rest ih => simpa [Forest.append, Forest.children] using ih

theorem only_names {name : EName} {g : EForest} {F : Forest} (h : Denotes g F) (ho : Only name g) : ∀ x ∈ F.children, x.name.expanded = name := by
  induction h with
  | nil => simp [Forest.children]
  | elem hn ha hc hr ihc ih =>
    intro x hx
    simp only [Forest.children, List.mem_cons] at hx
    rcases hx with rfl | hx
    · exact hn.trans ho.1
    · exact ih ho.2 x hx
  | chars hs hr ih => exact ho.elim
  | blank hs hr ih => exact ho.elim
  | misc h ih => exact ih ho

/-- Only elements with names such that. -/
def Within (P : EName → Prop) : EForest → Prop
  | .nil => True
  | .elem n _ _ rest => P n ∧ Within P rest
  | .chars _ _ => False

theorem within_append {P : EName → Prop} {f g : EForest} (hf : Within P f) (hg : Within P g) : Within P (f.append g) := by
  induction f with
  | nil => exact hg
  | elem n a c rest ihc ih => exact ⟨hf.1, ih hf.2⟩
  | chars s rest ih => exact hf.elim

theorem within_mono {P Q : EName → Prop} (h : ∀ n, P n → Q n) {f : EForest} (hf : Within P f) : Within Q f := by
  induction f with
  | nil => trivial
  | elem n a c rest ihc ih => exact ⟨h _ hf.1, ih hf.2⟩
  | chars s rest ih => exact hf.elim

theorem within_of_only {P : EName → Prop} {name : EName} (h : P name) {f : EForest} (hf : Only name f) : Within P f := by
  induction f with
  | nil => trivial
  | elem n a c rest ihc ih => exact ⟨hf.1 ▸ h, ih hf.2⟩
  | chars s rest ih => exact hf.elim

theorem within_names {P : EName → Prop} {g : EForest} {F : Forest} (h : Denotes g F) (ho : Within P g) : ∀ x ∈ F.children, P x.name.expanded := by
  induction h with
  | nil => simp [Forest.children]
  | elem hn ha hc hr ihc ih =>
    intro x hx
    simp only [Forest.children, List.mem_cons] at hx
    rcases hx with rfl | hx
    · exact hn ▸ ho.1
    · exact ih ho.2 x hx
  | chars hs hr ih => exact ho.elim
  | blank hs hr ih => exact ho.elim
  | misc h ih => exact ih ho

theorem others_names {P : EName → Prop} {g : EForest} {F : Forest} (h : Denotes g F) (ho : Others P g) : ∀ x ∈ F.children, ¬ P x.name.expanded := by
  induction h with
  | nil => simp [Forest.children]
  | elem hn ha hc hr ihc ih =>
    intro x hx
    simp only [Forest.children, List.mem_cons] at hx
    rcases hx with rfl | hx
    · exact hn ▸ ho.1
    · exact ih ho.2 x hx
  | chars hs hr ih => exact ih ho
  | blank hs hr ih => exact ih ho
  | misc h ih => exact ih ho

theorem flatContent_within {V : Visitor σ} {here : List StackElem} {fields : List (OField σ τ α)} {g : EForest} {F : Forest} (h : Denotes g F)
    (ho : Within (IsElement fields) g) (F' : Forest) (l : List (Raw σ τ α × τ)) :
    flatContent V here fields (F.append F') l = flatContent V here fields F' l := by
  induction h with
  | nil => rfl
  | elem hn ha hc hr ihc ih =>
    rw [Forest.append, flatContent, if_pos (hn ▸ ho.1)]
    exact ih ho.2
  | chars hs hr ih => exact ho.elim
  | blank hs hr ih => exact ho.elim
  | misc h ih => rw [Forest.append, flatContent]; exact ih ho

theorem flatContent_others {V : Visitor σ} {here : List StackElem} {fields : List (OField σ τ α)} {F : Forest}
    (ho : ∀ x ∈ F.children, ¬ IsElement fields x.name.expanded) (l : List (Raw σ τ α × τ)) :
    flatContent V here fields F l = flatContent V here ([] : List (OField σ τ α)) F l := by
  induction F generalizing l with
  | nil => rfl
  | elem n a ns pos ch ep rest _ ih =>
    rw [flatContent, flatContent, if_neg (show ¬ IsElement fields n.expanded from ho ⟨n, a, ns, pos, ch, ep⟩ (by simp [Forest.children])), if_neg (by rintro ⟨f, hf, -⟩; cases hf)]
    split
    · rfl
    · exact ih (fun x hx => ho x (by simp [Forest.children, hx])) _
  | chars s cd pos rest ih =>
    rw [flatContent, flatContent]
    split
    · rfl
    · exact ih ho _
  | misc m pos rest ih => rw [flatContent, flatContent]; exact ih ho l

theorem flatAttrs_append {fields : List (OField σ τ α)} {A A' : List XAttr} (h : ∀ a ∈ A, IsAttribute fields a.name.expanded)
    (l : List (Raw σ τ α × τ)) : flatAttrs fields (A ++ A') l = flatAttrs fields A' l := by
  induction A with
  | nil => rfl
  | cons a A ih =>
    rw [List.cons_append, flatAttrs, if_pos (h a (by simp))]
    exact ih fun b hb => h b (by simp [hb])

theorem flatAttrs_others {fields : List (OField σ τ α)} {A : List XAttr} (h : ∀ a ∈ A, ¬ IsAttribute fields a.name.expanded)
    (l : List (Raw σ τ α × τ)) : flatAttrs fields A l = flatAttrs ([] : List (OField σ τ α)) A l := by
  induction A generalizing l with
  | nil => rfl
  | cons a A ih =>
    rw [flatAttrs, flatAttrs, if_neg (h a (by simp)), if_neg (by rintro ⟨f, hf, -⟩; cases hf)]
    split
    · rfl
    · exact ih (fun b hb => h b (by simp [hb])) _

/-! ### Attributes -/

theorem find_shift {l m : List (EName × String)} {n : EName} (h : ∀ a ∈ l, a.1 ≠ n) :
    (l ++ m).find? (fun a => a.1 == n) = m.find? fun a => a.1 == n := by
  rw [List.find?_append, List.find?_eq_none.mpr fun a ha => by simpa using h a ha]
  rfl

theorem addAttr_sub (m : List (EName × String)) (n : EName) (v : String) : (∀ a ∈ m, a ∈ addAttr m n v) ∧ ∃ b ∈ addAttr m n v, b.1 = n := by
  unfold addAttr
  split
  · rename_i h
    obtain ⟨b, hb⟩ := Option.isSome_iff_exists.mp h
    exact ⟨fun a ha => ha, b, List.mem_of_find?_eq_some hb, by simpa using List.find?_some hb⟩
  · exact ⟨fun a ha => by simp [ha], (n, v), by simp, rfl⟩

theorem asks_sub {w : AttrProg} {m m' : List (EName × String)} (h : AttrProg.asks w m = some m') : ∀ a ∈ m, a ∈ m' := by
  induction w generalizing m with
  | ret r =>
    cases r with
    | error e => cases h
    | ok u => cases h; exact fun a ha => ha
  | «namespace» p u k ih => exact ih h
  | «attribute» n v k ih => exact fun a ha => ih _ h a ((addAttr_sub m n v).1 a ha)

/-- Other attributes before do not matter. -/
theorem asks_shift {w : AttrProg} {l m m' : List (EName × String)} (h : AttrProg.asks w m = some m') (hl : ∀ a ∈ l, ∀ b ∈ m', a.1 ≠ b.1) :
    AttrProg.asks w (l ++ m) = some (l ++ m') := by
  induction w generalizing m with
  | ret r =>
    cases r with
    | error e => cases h
    | ok u => cases h; rfl
  | «namespace» p u k ih => exact ih h
  | «attribute» n v k ih =>
    have h0 : AttrProg.asks (k (addResult m n v)) (addAttr m n v) = some m' := h
    have hn : ∀ a ∈ l, a.1 ≠ n := by
      intro a ha
      obtain ⟨b, hb, hbn⟩ := (addAttr_sub m n v).2
      exact hbn ▸ hl a ha b (asks_sub h0 b hb)
    have h1 : addResult (l ++ m) n v = addResult m n v := by unfold addResult; rw [find_shift hn]
    have h2 : addAttr (l ++ m) n v = l ++ addAttr m n v := by
      unfold addAttr
      rw [find_shift hn]
      split <;> simp
    show AttrProg.asks (k (addResult (l ++ m) n v)) (addAttr (l ++ m) n v) = _
    rw [h1, h2]
    exact ih _ h

theorem asks_after {w : AttrProg} {l as : List (EName × String)} (h : AttrProg.asks w [] = some as) (hl : ∀ a ∈ l, ∀ b ∈ as, a.1 ≠ b.1) :
    AttrProg.asks w l = some (l ++ as) := by
  simpa using asks_shift h hl

/-! ### Rows -/

/-- What is known of the attributes of some fields. -/
structure AttrsGood (rows : List (Row σ τ α)) (as : List (EName × String)) : Prop where
  names : ∀ a ∈ as, IsAttribute (fieldsOf rows) a.1
  each : ∀ r ∈ rows, ∀ impl, r.field.kind = .attribute impl → ∃ o : Option String,
    as.filter (fun a => a.1 == r.field.name.expanded) = o.toList.map (fun s => (r.field.name.expanded, s)) ∧
    match o with
    | some s => impl.init s = .ok r.value
    | none => absent r.field = .ok r.value

theorem distinct_tail {r : Row σ τ α} {rows : List (Row σ τ α)} (h : Distinct (fieldsOf (r :: rows))) : Distinct (fieldsOf rows) := by
  intro p q f g hp hq hn hk
  have := h (p + 1) (q + 1) f g (by simpa [fieldsOf] using hp) (by simpa [fieldsOf] using hq) hn hk
  omega

theorem distinct_head {r : Row σ τ α} {rows : List (Row σ τ α)} (h : Distinct (fieldsOf (r :: rows))) {g : OField σ τ α} (hg : g ∈ fieldsOf rows)
    (hk : (∃ i j, r.field.kind = .element i ∧ g.kind = .element j) ∨ (∃ i j, r.field.kind = .attribute i ∧ g.kind = .attribute j)) :
    g.name.expanded ≠ r.field.name.expanded := by
  intro hn
  obtain ⟨q, hq⟩ := List.mem_iff_getElem?.mp hg
  have := h 0 (q + 1) r.field g (by simp [fieldsOf]) (by simpa [fieldsOf] using hq) hn.symm hk
  omega

theorem attrs_rows {V : Visitor σ} {fields : List (OField σ τ α)} (rows : List (Row σ τ α)) (hD : Distinct (fieldsOf rows))
    (hb : ∀ r ∈ rows, FieldBack V fields r) : ∃ as, AttrsGood rows as ∧ ∀ l : List (EName × String), (∀ a ∈ l, ¬ IsAttribute (fieldsOf rows) a.1) →
      AttrProg.asks (attrFields (writtenOf rows)) l = some (l ++ as) := by
  induction rows with
  | nil => exact ⟨[], ⟨by simp, by simp⟩, fun l _ => by simp [writtenOf, attrFields, AttrProg.asks]⟩
  | cons r rows ih =>
    obtain ⟨as, hg, ha⟩ := ih (distinct_tail hD) fun r hr => hb r (by simp [hr])
    have hr := hb r (by simp)
    have mono : ∀ n, IsAttribute (fieldsOf rows) n → IsAttribute (fieldsOf (r :: rows)) n := by
      rintro n ⟨f, hf, h⟩
      exact ⟨f, by simp only [fieldsOf, List.map_cons, List.mem_cons]; exact .inr hf, h⟩
    unfold FieldBack at hr
    split at hr
    · rename_i impl w hk hk'
      refine ⟨as, ⟨fun a h => mono _ (hg.names a h), ?_⟩, ?_⟩
      · intro r' hr' impl' h'
        rcases List.mem_cons.mp hr' with rfl | hr'
        · rw [hk] at h'; cases h'
        · exact hg.each r' hr' impl' h'
      · intro l hl
        simp only [writtenOf, List.map_cons, attrFields, hk']
        exact ha l fun a h h' => hl a h (mono _ h')
    · rename_i impl w hk hk'
      obtain ⟨o, h1, h2⟩ := hr
      have hself : IsAttribute (fieldsOf (r :: rows)) r.field.name.expanded := ⟨r.field, by simp [fieldsOf], ⟨impl, hk⟩, rfl⟩
      have hne : ∀ n, IsAttribute (fieldsOf rows) n → n ≠ r.field.name.expanded := by
        rintro n ⟨f, hf, ⟨i, hi⟩, rfl⟩
        exact distinct_head hD hf (.inr ⟨impl, i, hk, hi⟩)
      refine ⟨o.toList.map (fun s => (r.field.name.expanded, s)) ++ as, ⟨?_, ?_⟩, ?_⟩
      · intro a h
        rcases List.mem_append.mp h with h | h
        · obtain ⟨s, -, rfl⟩ := List.mem_map.mp h
          exact hself
        · exact mono _ (hg.names a h)
      · intro r' hr' impl' h'
        rcases List.mem_cons.mp hr' with rfl | hr'
        · rw [hk] at h'
          cases h'
          refine ⟨o, ?_, h2⟩
          have hnil : as.filter (fun a => a.1 == r'.field.name.expanded) = [] :=
            List.filter_eq_nil_iff.mpr fun a h => by simpa using hne _ (hg.names a h)
          rw [List.filter_append, hnil, List.append_nil, List.filter_eq_self.mpr]
          intro a h
          obtain ⟨s, -, rfl⟩ := List.mem_map.mp h
          simp
        · obtain ⟨o', h3, h4⟩ := hg.each r' hr' impl' h'
          refine ⟨o', ?_, h4⟩
          rw [List.filter_append, List.filter_eq_nil_iff.mpr, List.nil_append, h3]
          intro a h
          obtain ⟨s, -, rfl⟩ := List.mem_map.mp h
          have := distinct_head hD (List.mem_map.mpr ⟨r', hr', rfl⟩) (.inr ⟨impl, impl', hk, h'⟩)
          simpa using this.symm
      · intro l hl
        simp only [writtenOf, List.map_cons, attrFields, hk']
        rw [asks_andThen, asks_after h1 (l := l) fun a h b hb h' => by
          obtain ⟨s, -, rfl⟩ := List.mem_map.mp hb
          exact hl a h (h' ▸ hself)]
        simp only [Option.bind_some]
        have := ha (l ++ o.toList.map fun s => (r.field.name.expanded, s)) (by
          intro a h
          rcases List.mem_append.mp h with h | h
          · exact fun h' => hl a h (mono _ h')
          · obtain ⟨s, -, rfl⟩ := List.mem_map.mp h
            exact fun h' => hne _ h' rfl)
        simp only [writtenOf] at this
        rw [this, List.append_assoc]
    · rename_i raw w hk hk'
      refine ⟨as, ⟨fun a h => mono _ (hg.names a h), ?_⟩, ?_⟩
      · intro r' hr' impl' h'
        rcases List.mem_cons.mp hr' with rfl | hr'
        · rw [hk] at h'; cases h'
        · exact hg.each r' hr' impl' h'
      · intro l hl
        simp only [writtenOf, List.map_cons, attrFields, hk']
        exact ha l fun a h h' => hl a h (mono _ h')
    · exact hr.elim

/-- What is known of the content of some fields. -/
structure ElemsGood (V : Visitor σ) (rows : List (Row σ τ α)) (g : EForest) : Prop where
  names : Within (IsElement (fieldsOf rows)) g
  each : ∀ F, Denotes g F → ∀ here, ∀ r ∈ rows, ∀ impl, r.field.kind = .element impl →
    ∃ c, fill V here impl none (F.childrenNamed r.field.name.expanded) = some c ∧ (c = some r.value ∨ c = none ∧ absent r.field = .ok r.value)

theorem elems_rows {V : Visitor σ} {fields : List (OField σ τ α)} (rows : List (Row σ τ α)) (hD : Distinct (fieldsOf rows))
    (hb : ∀ r ∈ rows, FieldBack V fields r) : ∃ g, ElemsGood V rows g ∧ ∀ k es, Prog.asks k [] = some (es, .ok ()) →
      Prog.asks (elemFields (writtenOf rows) k) [] = some (g.events ++ es, .ok ()) := by
  induction rows with
  | nil => exact ⟨.nil, ⟨trivial, by simp⟩, fun k es h => h⟩
  | cons r rows ih =>
    obtain ⟨g, hg, ha⟩ := ih (distinct_tail hD) fun r hr => hb r (by simp [hr])
    have hr := hb r (by simp)
    have mono : ∀ n, IsElement (fieldsOf rows) n → IsElement (fieldsOf (r :: rows)) n := by
      rintro n ⟨f, hf, h⟩
      exact ⟨f, by simp only [fieldsOf, List.map_cons, List.mem_cons]; exact .inr hf, h⟩
    have skip : (∀ impl, r.field.kind ≠ .element impl) → ElemsGood V (r :: rows) g := by
      intro hk
      refine ⟨within_mono mono hg.names, ?_⟩
      intro F hF here r' hr' impl' h'
      rcases List.mem_cons.mp hr' with rfl | hr'
      · exact absurd h' (hk _)
      · exact hg.each F hF here r' hr' impl' h'
    unfold FieldBack at hr
    split at hr
    · rename_i impl w hk hk'
      obtain ⟨g0, h1, h2, h3⟩ := hr
      have hself : IsElement (fieldsOf (r :: rows)) r.field.name.expanded := ⟨r.field, by simp [fieldsOf], ⟨impl, hk⟩, rfl⟩
      refine ⟨g0.append g, ⟨within_append (within_of_only hself h2) (within_mono mono hg.names), ?_⟩, ?_⟩
      · intro F hF here r' hr' impl' h'
        obtain ⟨F0, F1, rfl, hF0, hF1⟩ := denotes_append hF
        rw [Forest.childrenNamed, forest_children_append, List.filter_append]
        rcases List.mem_cons.mp hr' with rfl | hr'
        · rw [hk] at h'
          cases h'
          rw [List.filter_eq_self.mpr fun x hx => by simpa using only_names hF0 h2 x hx, List.filter_eq_nil_iff.mpr, List.append_nil]
          · exact h3 here F0 hF0
          · intro x hx
            obtain ⟨f, hf, ⟨i, hi⟩, he⟩ := within_names hF1 hg.names x hx
            have := distinct_head hD hf (.inl ⟨impl, i, hk, hi⟩)
            rw [he] at this
            simpa using this
        · rw [List.filter_eq_nil_iff.mpr, List.nil_append]
          · exact hg.each F1 hF1 here r' hr' impl' h'
          · intro x hx
            have := distinct_head hD (List.mem_map.mpr ⟨r', hr', rfl⟩) (.inl ⟨impl, impl', hk, h'⟩)
            rw [only_names hF0 h2 x hx]
            simpa using this.symm
      · intro k es h
        have := asks_then h1 (ha k es h)
        simp only [writtenOf] at this
        simp only [writtenOf, List.map_cons, elemFields, hk']
        rw [this, events_append, List.append_assoc]
    · rename_i impl w hk hk'
      refine ⟨g, skip fun i h => (by rw [hk] at h; cases h), fun k es h => ?_⟩
      simp only [writtenOf, List.map_cons, elemFields, hk']
      exact ha k es h
    · rename_i impl w hk hk'
      refine ⟨g, skip fun i h => (by rw [hk] at h; cases h), fun k es h => ?_⟩
      simp only [writtenOf, List.map_cons, elemFields, hk']
      exact ha k es h
    · exact hr.elim

/-- No flattened field. -/
def NoFlatten (rows : List (Row σ τ α)) : Prop := ∀ r ∈ rows, ∀ raw, r.field.kind ≠ .flatten raw

theorem noFlatten_written {V : Visitor σ} {fields : List (OField σ τ α)} {rows : List (Row σ τ α)} (hn : NoFlatten rows)
    (hb : ∀ r ∈ rows, FieldBack V fields r) :
    flattenAttrs (writtenOf rows) = .ret (.ok ()) ∧ flattens (writtenOf rows) = .ret (.ok ()) ∧ newFlats (fieldsOf rows) = [] := by
  induction rows with
  | nil => exact ⟨rfl, rfl, rfl⟩
  | cons r rows ih =>
    obtain ⟨h1, h2, h3⟩ := ih (fun r hr => hn r (by simp [hr])) fun r hr => hb r (by simp [hr])
    have hr := hb r (by simp)
    unfold FieldBack at hr
    split at hr
    · rename_i impl w hk hk'
      simp only [writtenOf, fieldsOf] at h1 h2 h3
      simp [writtenOf, fieldsOf, flattenAttrs, flattens, newFlats, hk, hk', h1, h2, h3]
    · rename_i impl w hk hk'
      simp only [writtenOf, fieldsOf] at h1 h2 h3
      simp [writtenOf, fieldsOf, flattenAttrs, flattens, newFlats, hk, hk', h1, h2, h3]
    · rename_i raw w hk hk'
      exact absurd hk (hn r (by simp) raw)
    · exact hr.elim

theorem oneFlatten_cases (rows : List (Row σ τ α)) (h : OneFlatten (fieldsOf rows)) :
    NoFlatten rows ∨ ∃ pre r post raw, rows = pre ++ r :: post ∧ r.field.kind = .flatten raw ∧ NoFlatten pre ∧ NoFlatten post := by
  induction rows with
  | nil => exact .inl (by simp [NoFlatten])
  | cons r rows ih =>
    have htail : OneFlatten (fieldsOf rows) := by
      intro p q f g raw raw' hp hq hf hg
      have := h (p + 1) (q + 1) f g raw raw' (by simpa [fieldsOf] using hp) (by simpa [fieldsOf] using hq) hf hg
      omega
    by_cases hk : ∃ raw, r.field.kind = .flatten raw
    · obtain ⟨raw, hk⟩ := hk
      refine .inr ⟨[], r, rows, raw, rfl, hk, by simp [NoFlatten], ?_⟩
      intro r' hr' raw' hk'
      obtain ⟨q, hq⟩ := List.mem_iff_getElem?.mp hr'
      have := h 0 (q + 1) r.field r'.field raw raw' (by simp [fieldsOf]) (by simp [fieldsOf, hq]) hk hk'
      omega
    · rcases ih htail with hn | ⟨pre, r', post, raw, rfl, hr', h1, h2⟩
      · refine .inl ?_
        intro r' hr' raw hk'
        rcases List.mem_cons.mp hr' with rfl | hr'
        · exact hk ⟨raw, hk'⟩
        · exact hn r' hr' raw hk'
      · refine .inr ⟨r :: pre, r', post, raw, rfl, hr', ?_, h2⟩
        intro r'' hr'' raw hk'
        rcases List.mem_cons.mp hr'' with rfl | hr''
        · exact hk ⟨raw, hk'⟩
        · exact h1 r'' hr'' raw hk'

theorem writtenOf_append (a b : List (Row σ τ α)) : writtenOf (a ++ b) = writtenOf a ++ writtenOf b := List.map_append

theorem fieldsOf_append (a b : List (Row σ τ α)) : fieldsOf (a ++ b) = fieldsOf a ++ fieldsOf b := List.map_append

theorem flattenAttrs_pre {V : Visitor σ} {fields : List (OField σ τ α)} {pre : List (Row σ τ α)} (hn : NoFlatten pre)
    (hb : ∀ r ∈ pre, FieldBack V fields r) (l : List SField) (m : List (OField σ τ α)) :
    flattenAttrs (writtenOf pre ++ l) = flattenAttrs l ∧ flattens (writtenOf pre ++ l) = flattens l ∧
      newFlats (fieldsOf pre ++ m) = newFlats m := by
  induction pre with
  | nil => exact ⟨rfl, rfl, rfl⟩
  | cons r pre ih =>
    obtain ⟨h1, h2, h3⟩ := ih (fun r hr => hn r (by simp [hr])) fun r hr => hb r (by simp [hr])
    have hr := hb r (by simp)
    unfold FieldBack at hr
    split at hr
    · rename_i impl w hk hk'
      simp only [writtenOf, fieldsOf] at h1 h2 h3
      simp [writtenOf, fieldsOf, flattenAttrs, flattens, newFlats, hk, hk', h1, h2, h3]
    · rename_i impl w hk hk'
      simp only [writtenOf, fieldsOf] at h1 h2 h3
      simp [writtenOf, fieldsOf, flattenAttrs, flattens, newFlats, hk, hk', h1, h2, h3]
    · rename_i raw w hk hk'
      exact absurd hk (hn r (by simp) raw)
    · exact hr.elim

/-- What the flattened field (if there is one) writes and what becomes of it. -/
theorem flats_rows {V : Visitor σ} {fields : List (OField σ τ α)} (rows : List (Row σ τ α)) (h1 : OneFlatten (fieldsOf rows))
    (hb : ∀ r ∈ rows, FieldBack V fields r) : ∃ as g,
      (∀ l : List (EName × String), (∀ a ∈ l, IsAttribute fields a.1) → AttrProg.asks (flattenAttrs (writtenOf rows)) l = some (l ++ as)) ∧
      Prog.asks (flattens (writtenOf rows)) [] = some (g.events, .ok ()) ∧
      (∀ a ∈ as, ¬ IsAttribute fields a.1) ∧ Others (IsElement fields) g ∧
      ∀ path e A F x, A.map (fun a : XAttr => (a.name.expanded, a.value)) = as → Denotes g F →
        (∀ r ∈ rows, (∀ raw, r.field.kind ≠ .flatten raw) → Gets V (path ++ [e]) x r.field r.value) →
        ∃ l l', flatAttrs ([] : List (OField σ τ α)) A (newFlats (fieldsOf rows)) = some l ∧
          flatContent V (path ++ [e]) ([] : List (OField σ τ α)) F l = some l' ∧ AllGet V (path ++ [e]) x (fieldsOf rows) l' (rows.map Row.value) := by
  have plain : ∀ here x (rows : List (Row σ τ α)), NoFlatten rows →
      (∀ r ∈ rows, (∀ raw, r.field.kind ≠ .flatten raw) → Gets V here x r.field r.value) → AllGet V here x (fieldsOf rows) [] (rows.map Row.value) := by
    intro here x rows hn hG
    induction rows with
    | nil => exact .nil
    | cons r rows ih =>
      exact .plain (hG r (by simp) (hn r (by simp))) (ih (fun r hr => hn r (by simp [hr])) fun r hr => hG r (by simp [hr]))
  rcases oneFlatten_cases rows h1 with hn | ⟨pre, r, post, raw, rfl, hk, hn, hn'⟩
  · obtain ⟨e1, e2, e3⟩ := noFlatten_written hn hb
    refine ⟨[], .nil, fun l _ => by simp [e1, AttrProg.asks], by simp [e2, Prog.asks, EForest.events], by simp, trivial, ?_⟩
    intro path e A F x hA hF hG
    refine ⟨[], [], ?_, ?_, plain (path ++ [e]) x rows hn hG⟩
    · rw [e3, List.map_eq_nil_iff.mp hA]; rfl
    · generalize hg : EForest.nil = g at hF
      induction hF with
      | nil => rfl
      | elem => cases hg
      | chars => cases hg
      | blank => cases hg
      | misc h ih => rw [flatContent]; exact ih hg
  · have hr := hb r (by simp)
    unfold FieldBack at hr
    split at hr
    · rename_i hk1 _; rw [hk] at hk1; cases hk1
    · rename_i hk1 _; rw [hk] at hk1; cases hk1
    · rename_i raw' w hk1 hk'
      rw [hk] at hk1
      cases hk1
      obtain ⟨as, g, g1, g2, g3, g4, g5⟩ := hr
      have hpre := fun l m => flattenAttrs_pre (V := V) (fields := fields) hn (fun r hr => hb r (by simp [hr])) l m
      obtain ⟨e1, e2, e3⟩ := noFlatten_written hn' fun r hr => hb r (by simp [hr])
      have f1 : flattenAttrs (writtenOf (pre ++ r :: post)) = w.attrs.andThen (.ret (.ok ())) := by
        rw [writtenOf_append, (hpre _ (fieldsOf post)).1]
        show flattenAttrs (⟨r.field.name, r.kind⟩ :: writtenOf post) = _
        simp [flattenAttrs, hk', e1]
      have f2 : flattens (writtenOf (pre ++ r :: post)) = andThen w.children (.ret (.ok ())) := by
        rw [writtenOf_append, (hpre _ (fieldsOf post)).2.1]
        show flattens (⟨r.field.name, r.kind⟩ :: writtenOf post) = _
        simp [flattens, hk', e2]
      have f3 : newFlats (fieldsOf (pre ++ r :: post)) = [(raw, raw.new)] := by
        rw [fieldsOf_append, (hpre [] _).2.2]
        show newFlats (r.field :: fieldsOf post) = _
        simp [newFlats, hk, e3]
      refine ⟨as, g, ?_, ?_, g3, g4, ?_⟩
      · intro l hl
        rw [f1, asks_andThen, asks_after g1 (l := l) fun a ha b hb' he => g3 b hb' (he ▸ hl a ha)]
        rfl
      · rw [f2]
        have := asks_then g2 (q := .ret (.ok ())) (es' := []) (r := .ok ()) rfl
        simpa using this
      · intro path e A F x hA hF hG
        obtain ⟨t, t', t'', k1, k2, k3, k4⟩ := g5 path e A F hA hF
        refine ⟨[(raw, t)], [(raw, t')], by rw [f3]; exact k1, k2, ?_⟩
        clear f1 f2 f3 hpre h1
        induction pre with
        | nil =>
          exact .flat hk k3 k4 (plain (path ++ [e]) x post hn' fun r hr => hG r (by simp [hr]))
        | cons r0 pre ih =>
          refine .plain (hG r0 (by simp) (hn r0 (by simp))) (ih ?_ ?_ ?_)
          · intro r hr
            refine hb r ?_
            simp only [List.mem_append, List.mem_cons] at hr
            rcases hr with hr | rfl | hr
            · simp [hr]
            · simp
            · simp [hr]
          · exact fun r hr => hn r (by simp [hr])
          · intro r hr
            refine hG r ?_
            simp only [List.mem_append, List.mem_cons] at hr
            rcases hr with hr | rfl | hr
            · simp [hr]
            · simp
            · simp [hr]
    · exact hr.elim

/-- A struct reads back what it wrote, if its fields do. -/
theorem struct_back {V : Visitor σ} (ns : List (String × String)) (rows : List (Row σ τ α)) (hD : Distinct (fieldsOf rows))
    (h1 : OneFlatten (fieldsOf rows)) (hb : ∀ r ∈ rows, FieldBack V (fieldsOf rows) r) :
    ∃ as g, AttrProg.asks (structSer ns (writtenOf rows)).attrs [] = some as ∧
      Prog.asks (structSer ns (writtenOf rows)).children [] = some (g.events, .ok ()) ∧
      ∀ path x, IsWritten as g x → StructRead V path (fieldsOf rows) x (rows.map Row.value) := by
  obtain ⟨as, ga, ha⟩ := attrs_rows rows hD hb
  obtain ⟨g, ge, he⟩ := elems_rows rows hD hb
  obtain ⟨as', g', k1, k2, k3, k4, k5⟩ := flats_rows rows h1 hb
  refine ⟨as ++ as', g.append g', ?_, ?_, ?_⟩
  · simp only [structSer]
    rw [asks_andThen, asks_namespaces]
    simp only [Option.bind_some]
    rw [asks_andThen, ha [] (by simp)]
    simp only [Option.bind_some, List.nil_append]
    exact k1 as ga.names
  · simp only [structSer]
    rw [he _ _ k2, events_append]
  · rintro path x ⟨hxa, hxc⟩
    obtain ⟨F1, F2, hF, hF1, hF2⟩ := denotes_append hxc
    obtain ⟨A1, A2, hA, hA1, hA2⟩ := List.map_eq_append_iff.mp hxa
    have hG : ∀ r ∈ rows, (∀ raw, r.field.kind ≠ .flatten raw) →
        Gets V (path ++ [{ name := x.name, pos := x.pos }]) x r.field r.value := by
      intro r hr hnf
      unfold Gets
      cases hk : r.field.kind with
      | flatten raw => exact absurd hk (hnf raw)
      | element impl =>
        obtain ⟨c, h2, h3⟩ := ge.each F1 hF1 (path ++ [{ name := x.name, pos := x.pos }]) r hr impl hk
        refine ⟨c, ?_, h3⟩
        simp only
        have hnil : F2.children.filter (fun y => y.name.expanded == r.field.name.expanded) = [] := by
          rw [List.filter_eq_nil_iff]
          intro y hy hye
          exact others_names hF2 k4 y hy ⟨r.field, List.mem_map.mpr ⟨r, hr, rfl⟩, ⟨impl, hk⟩, (by simpa using hye : _ = _).symm⟩
        rw [hF, Forest.childrenNamed, forest_children_append, List.filter_append, hnil, List.append_nil]
        exact h2
      | «attribute» impl =>
        obtain ⟨o, h2, h3⟩ := ga.each r hr impl hk
        have hno : A2.filter (fun a => a.name.expanded == r.field.name.expanded) = [] := by
          rw [List.filter_eq_nil_iff]
          intro a ha hae
          have hm : (a.name.expanded, a.value) ∈ as' := by rw [← hA2]; exact List.mem_map.mpr ⟨a, ha, rfl⟩
          exact k3 _ hm ⟨r.field, List.mem_map.mpr ⟨r, hr, rfl⟩, ⟨impl, hk⟩, (by simpa using hae : _ = _).symm⟩
        have hmap : (A1.filter fun a => a.name.expanded == r.field.name.expanded).map (fun a => (a.name.expanded, a.value)) =
            o.toList.map fun s => (r.field.name.expanded, s) := by
          rw [← h2, ← hA1, List.filter_map]
          rfl
        simp only
        rw [hA, List.filter_append, hno, List.append_nil]
        cases o with
        | none =>
          rw [List.map_eq_nil_iff.mp hmap]
          exact ⟨none, rfl, .inr ⟨rfl, h3⟩⟩
        | some s =>
          simp only [Option.toList_some, List.map_cons, List.map_nil] at hmap
          obtain ⟨a, l, hl, hav, hl'⟩ := List.map_eq_cons_iff.mp hmap
          rw [List.map_eq_nil_iff.mp hl'] at hl
          simp only [Prod.mk.injEq] at hav
          rw [hl]
          refine ⟨some r.value, ?_, .inl rfl⟩
          simp only [fillAttr, hav.2]
          rw [show impl.init s = .ok r.value from h3]
    obtain ⟨l, l', m1, m2, m3⟩ := k5 path { name := x.name, pos := x.pos } A2 F2 x hA2 hF2 hG
    refine ⟨l, l', ?_, ?_, m3⟩
    · rw [hA, flatAttrs_append, flatAttrs_others]
      · exact m1
      · intro a ha
        have hm : (a.name.expanded, a.value) ∈ as' := by rw [← hA2]; exact List.mem_map.mpr ⟨a, ha, rfl⟩
        exact k3 _ hm
      · intro a ha
        have hm : (a.name.expanded, a.value) ∈ as := by rw [← hA1]; exact List.mem_map.mpr ⟨a, ha, rfl⟩
        exact ga.names _ hm
    · rw [hF, flatContent_within hF1 ge.names, flatContent_others (others_names hF2 k4)]
      exact m2

/-! ### Flattened types -/

/-- The state of the only flattened field. -/
def onlyFlat (emb : τ → σ) : List (Raw σ τ α × τ) → Option σ
  | [(_, t)] => some (emb t)
  | _ => none

theorem offerElem_heard {V : Visitor σ} {raw : Raw σ τ α} (emb : τ → σ) (here : List StackElem) (x : Elem) (t : τ) :
    okState (perform V here x (heardElem emb (raw.element t (infoOf here x)))) = (offerElem V here x [(raw, t)]).bind (onlyFlat emb) ∧
      ∀ l, offerElem V here x [(raw, t)] = some l → ∃ t', l = [(raw, t')] := by
  simp only [offerElem]
  rcases raw.element t (infoOf here x) with f | (t' | a)
  · exact ⟨rfl, by rintro l ⟨⟩⟩
  · refine ⟨rfl, ?_⟩
    rintro l ⟨⟩
    exact ⟨t', rfl⟩
  · simp only [heardElem]
    rw [perform_map]
    rcases perform V here x a with f | ⟨f | ⟨t', u | e | _⟩, stop⟩
    · exact ⟨rfl, by rintro l ⟨⟩⟩
    · exact ⟨rfl, by rintro l ⟨⟩⟩
    · refine ⟨rfl, ?_⟩
      rintro l ⟨⟩
      exact ⟨t', rfl⟩
    · exact ⟨rfl, by rintro l ⟨⟩⟩
    · exact ⟨rfl, by rintro l ⟨⟩⟩

theorem content_flat {V : Visitor σ} {raw : Raw σ τ α} {emb : τ → σ} (hV : Includes V raw emb) (here : List StackElem) (F : Forest) (t : τ) :
    okContent (content V here F (emb t)) = (flatContent V here ([] : List (OField σ τ α)) F [(raw, t)]).bind (onlyFlat emb) ∧
      ∀ l, flatContent V here ([] : List (OField σ τ α)) F [(raw, t)] = some l → ∃ t', l = [(raw, t')] := by
  induction F generalizing t with
  | nil =>
    rw [content, flatContent]
    refine ⟨rfl, ?_⟩
    rintro l ⟨⟩
    exact ⟨t, rfl⟩
  | misc m pos rest ih => rw [content, flatContent]; exact ih t
  | chars s cd pos rest ih =>
    rw [content_chars, hV.chars, flatContent]
    simp only [offerChars]
    rcases raw.characters t s pos with f | ⟨t', (_ | s') | e | _⟩
    · exact ⟨rfl, by rintro l ⟨⟩⟩
    · exact ih t'
    · exact ih t'
    · exact ⟨rfl, by rintro l ⟨⟩⟩
    · exact ⟨rfl, by rintro l ⟨⟩⟩
  | elem name attrs ns pos ch ep rest _ ih =>
    rw [content_elem, hV.elem, flatContent, if_neg (by rintro ⟨f, hf, -⟩; cases hf)]
    have h := offerElem_heard (V := V) (raw := raw) emb here ⟨name, attrs, ns, pos, ch, ep⟩ t
    rw [h.1]
    cases ho : offerElem V here ⟨name, attrs, ns, pos, ch, ep⟩ [(raw, t)] with
    | none => exact ⟨rfl, by rintro l ⟨⟩⟩
    | some l =>
      obtain ⟨t', rfl⟩ := h.2 l ho
      exact ih t'

theorem attributes_flat {V : Visitor σ} {raw : Raw σ τ α} {emb : τ → σ} (hV : Includes V raw emb) (here : List StackElem) (pos : Pos)
    (A : List XAttr) (t : τ) :
    okContent (attributes V here pos A (emb t)) = (flatAttrs ([] : List (OField σ τ α)) A [(raw, t)]).bind (onlyFlat emb) ∧
      ∀ l, flatAttrs ([] : List (OField σ τ α)) A [(raw, t)] = some l → ∃ t', l = [(raw, t')] := by
  induction A generalizing t with
  | nil =>
    rw [attributes, flatAttrs]
    refine ⟨rfl, ?_⟩
    rintro l ⟨⟩
    exact ⟨t, rfl⟩
  | cons a A ih =>
    rw [attributes_cons, hV.attr, flatAttrs, if_neg (by rintro ⟨f, hf, -⟩; cases hf)]
    simp only [offerAttr]
    rcases raw.attr t a.name.expanded a.value with f | ⟨t', (_ | s') | e | _⟩
    · exact ⟨rfl, by rintro l ⟨⟩⟩
    · exact ih t'
    · exact ih t'
    · exact ⟨rfl, by rintro l ⟨⟩⟩
    · exact ⟨rfl, by rintro l ⟨⟩⟩

/-- A type, flattened, reads back what it wrote, if it does so in an element of its own. -/
theorem flattened_back {V : Visitor σ} {raw : Raw σ τ α} {emb : τ → σ} {proj : σ → Option τ} (hV : Includes V raw emb) (hp : ∀ t, proj (emb t) = some t)
    {P Q : EName → Prop} {default : Option (Ret Empty α)}
    (hd : ∀ t t', raw.finalize t none = .ok (t', .ok ()) → raw.finalize t default = .ok (t', .ok ())) {w : Ser} {v : α}
    {as : List (EName × String)} {g : EForest} (ha : AttrProg.asks w.attrs [] = some as) (hg : Prog.asks w.children [] = some (g.events, .ok ()))
    (hP : ∀ a ∈ as, ¬ P a.1) (hQ : Others Q g) (hr : ∀ name, ReadsAs V (deserVia raw emb proj) name w v) :
    FlattenedBack V P Q raw default w v := by
  refine ⟨as, g, ha, hg, hP, hQ, ?_⟩
  rintro path ⟨nm, pos⟩ A F hA hF
  obtain ⟨as', g', ha', hg', hr⟩ := hr nm.expanded
  rw [ha] at ha'
  cases ha'
  rw [hg] at hg'
  simp only [Option.some.injEq, Prod.mk.injEq, and_true] at hg'
  obtain rfl : g = g' := (events_inj g g' [] [] (by rw [hg'])).1
  have := hr path ⟨nm, A, [], pos, F, pos⟩ rfl ⟨hA, hF⟩
  obtain ⟨s, s', t, h1, h2, h3, h4⟩ := (deserVia_ok V raw emb proj path ⟨nm, A, [], pos, F, pos⟩ v).mp this
  simp only at h1 h2
  obtain ⟨e1, e2⟩ := attributes_flat hV (path ++ [⟨nm, pos⟩]) pos A raw.new
  rw [e1] at h1
  obtain ⟨l, hl, hl'⟩ := Option.bind_eq_some_iff.mp h1
  obtain ⟨t1, rfl⟩ := e2 l hl
  simp only [onlyFlat, Option.some.injEq] at hl'
  subst hl'
  obtain ⟨e3, e4⟩ := content_flat hV (path ++ [⟨nm, pos⟩]) F t1
  rw [e3] at h2
  obtain ⟨l, hl2, hl'⟩ := Option.bind_eq_some_iff.mp h2
  obtain ⟨t2, rfl⟩ := e4 l hl2
  simp only [onlyFlat, Option.some.injEq] at hl'
  subst hl'
  rw [hp] at h3
  cases h3
  obtain ⟨t3, h5, h6⟩ := (finishRaw_ok raw t v).mp h4
  exact ⟨t1, t, t3, hl, hl2, hd _ _ h5, h6⟩

/-! ### Enums -/

theorem enum_back {V : Visitor σ} (ns : List (String × String)) {vs : List (OVariant σ α)} {i : Nat} {var : OVariant σ α}
    (hi : vs[i]? = some var) {s : SVariant} {p : Option α} (hb : VariantBack V var s p) :
    ∃ g, AttrProg.asks (enumSer ns s).attrs [] = some [] ∧ Prog.asks (enumSer ns s).children [] = some (g.events, .ok ()) ∧
      Only var.name.expanded g ∧ ∀ path x, IsWritten [] g x → EnumRead V path vs x (i, p) := by
  unfold VariantBack at hb
  split at hb
  · rename_i n hpl
    refine ⟨.elem var.name.expanded [] .nil .nil, asks_namespaces ns [], ?_, ⟨rfl, trivial⟩, ?_⟩
    · have h1 : Prog.asks (writeUnit n.expanded .ret) [] = some ([.start n.expanded [], .stop], .ok ()) := by
        rw [asks_writeUnit]; rfl
      have := asks_then h1 (q := .ret (.ok ())) (es' := []) (r := .ok ()) rfl
      simp only [enumSer]
      rw [this, hb]
      rfl
    · rintro path x ⟨-, hx⟩
      have hnm := only_names hx ⟨rfl, trivial⟩
      have hne : x.children.children ≠ [] := by
        generalize hg : EForest.elem var.name.expanded [] .nil .nil = g at hx
        revert hg
        generalize x.children = F at hx
        clear hnm
        intro hg
        induction hx with
        | nil => cases hg
        | elem => simp [Forest.children]
        | chars => cases hg
        | blank => cases hg
        | misc h ih => exact ih hg
      have hf : x.children.childrenNamed var.name.expanded = x.children.children := by
        rw [Forest.childrenNamed, List.filter_eq_self.mpr]
        intro y hy
        simpa using hnm y hy
      refine ⟨var, hi, by rw [hf]; exact hne, ?_, by rw [hpl]⟩
      intro w _ hw
      obtain ⟨y, hy⟩ := List.exists_mem_of_ne_nil _ hw
      obtain ⟨hy, hyn⟩ := List.mem_filter.mp hy
      rw [← hnm y hy]
      exact (by simpa using hyn : _ = _).symm
  · rename_i impl n w v hpl
    obtain ⟨hn, g, h1, h2, h3⟩ := hb
    refine ⟨g, asks_namespaces ns [], ?_, h2, ?_⟩
    · have := asks_then h1 (q := .ret (.ok ())) (es' := []) (r := .ok ()) rfl
      simp only [enumSer]
      rw [this, List.append_nil]
    · rintro path x ⟨-, hx⟩
      have hnm := only_names hx h2
      have hf : x.children.childrenNamed var.name.expanded = x.children.children := by
        rw [Forest.childrenNamed, List.filter_eq_self.mpr]
        intro y hy
        simpa using hnm y hy
      have hfill := h3 (path ++ [{ name := x.name, pos := x.pos }]) x.children hx
      refine ⟨var, hi, ?_, ?_, ?_⟩
      · rw [hf]
        intro he
        rw [he] at hfill
        cases hfill
      · intro w _ hw
        obtain ⟨y, hy⟩ := List.exists_mem_of_ne_nil _ hw
        obtain ⟨hy, hyn⟩ := List.mem_filter.mp hy
        rw [← hnm y hy]
        exact (by simpa using hyn : _ = _).symm
      · rw [hpl, hf]
        exact ⟨v, rfl, hfill⟩
  · exact hb.elim

end SX.Open
