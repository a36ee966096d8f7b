import Verif.Spec.Schema
import Verif.Props.Derive
import Verif.Proof.GenWf

/-
Lemmas for C62.
-/
namespace SX
open Spec Spec.Schema

/-! ### Names allowed by a content model -/

theorem decls_cons (p : Particle) (ps : List Particle) :
    decls (p :: ps) = (match p with | .element d => [d] | .choice ds => ds) ++ decls ps := by
  simp only [decls, List.flatMap_cons]
  cases p <;> rfl

theorem decl_lang_count {d : ElemDecl} {w : List EName} (h : d.Lang w) : d.Allows (w.count d.name) ∧ ∀ n, n ≠ d.name → w.count n = 0 := by
  obtain ⟨n, h1, rfl⟩ := h
  refine ⟨by simpa using h1, fun m hm => ?_⟩
  rw [List.count_eq_zero]
  intro hc
  exact hm (List.eq_of_mem_replicate hc)

theorem lang_other {ps : List Particle} {w : List EName} (h : Lang ps w) {n : EName} (hn : n ∉ (decls ps).map ElemDecl.name) :
    w.count n = 0 := by
  induction ps generalizing w with
  | nil => simp only [Lang] at h; subst h; rfl
  | cons p ps ih =>
    obtain ⟨u, v, rfl, h1, h2⟩ := h
    rw [decls_cons, List.map_append, List.mem_append, not_or] at hn
    rw [List.count_append, ih h2 hn.2]
    cases p with
    | element d => exact (decl_lang_count h1).2 n (by simpa using hn.1)
    | choice ds =>
      obtain ⟨d, hd, h1⟩ := h1
      refine (decl_lang_count h1).2 n ?_
      rintro rfl
      exact hn.1 (List.mem_map_of_mem hd)

theorem lang_element {ps : List Particle} {w : List EName} (h : Lang ps w) (nd : ((decls ps).map ElemDecl.name).Nodup) {d : ElemDecl}
    (hd : .element d ∈ ps) : d.Allows (w.count d.name) := by
  induction ps generalizing w with
  | nil => simp at hd
  | cons p ps ih =>
    obtain ⟨u, v, rfl, h1, h2⟩ := h
    rw [decls_cons, List.map_append, List.nodup_append] at nd
    obtain ⟨n1, n2, n3⟩ := nd
    rw [List.count_append]
    rcases List.mem_cons.mp hd with rfl | hd
    · rw [lang_other h2, Nat.add_zero]
      · exact (decl_lang_count h1).1
      · intro hc
        exact n3 d.name (by simp) _ hc rfl
    · have hm : d.name ∈ (decls ps).map ElemDecl.name :=
        List.mem_map_of_mem (List.mem_flatMap.mpr ⟨_, hd, by simp⟩)
      have : u.count d.name = 0 := by
        have hl : Lang [p] u := ⟨u, [], by simp, h1, rfl⟩
        refine lang_other hl ?_
        rw [decls_cons, show decls [] = [] from rfl, List.append_nil]
        intro hc
        exact n3 _ hc _ hm rfl
      rw [this, Nat.zero_add]
      exact ih h2 n2 hd

theorem lang_choice {ps : List Particle} {w : List EName} (h : Lang ps w) (nd : ((decls ps).map ElemDecl.name).Nodup) {ds : List ElemDecl}
    (hd : .choice ds ∈ ps) : ∃ d ∈ ds, d.Allows (w.count d.name) ∧ ∀ d' ∈ ds, d'.name ≠ d.name → w.count d'.name = 0 := by
  induction ps generalizing w with
  | nil => simp at hd
  | cons p ps ih =>
    obtain ⟨u, v, rfl, h1, h2⟩ := h
    rw [decls_cons, List.map_append, List.nodup_append] at nd
    obtain ⟨n1, n2, n3⟩ := nd
    rcases List.mem_cons.mp hd with rfl | hd
    · have hv : ∀ d' ∈ ds, v.count d'.name = 0 := by
        intro d' hd'
        refine lang_other h2 ?_
        intro hc
        exact n3 d'.name (List.mem_map_of_mem hd') _ hc rfl
      obtain ⟨d, hd, h1⟩ := h1
      refine ⟨d, hd, ?_, fun d' hd' hn => ?_⟩
      · rw [List.count_append, hv d hd, Nat.add_zero]
        exact (decl_lang_count h1).1
      · rw [List.count_append, hv d' hd', (decl_lang_count h1).2 _ hn]
    · have hu : ∀ d' ∈ ds, u.count d'.name = 0 := by
        intro d' hd'
        have hl : Lang [p] u := ⟨u, [], by simp, h1, rfl⟩
        refine lang_other hl ?_
        rw [decls_cons, show decls [] = [] from rfl, List.append_nil]
        intro hc
        exact n3 _ hc _ (List.mem_map_of_mem (List.mem_flatMap.mpr ⟨_, hd, hd'⟩)) rfl
      obtain ⟨d, h3, h4, h5⟩ := ih h2 n2 hd
      refine ⟨d, h3, ?_, fun d' hd' hn => ?_⟩
      · rw [List.count_append, hu d h3, Nat.zero_add]
        exact h4
      · rw [List.count_append, hu d' hd', h5 d' hd' hn]

/-! ### What the parser reports, and its content -/

def childOf (x : Elem) : Child := { name := x.name.expanded, attrs := attrsOf x.attrs, content := contentOf x.children }

theorem children_contentOf (f : Forest) : children (contentOf f) = f.children.map childOf := by
  induction f with
  | nil => rfl
  | elem q as ns p ch ep rest _ ih => simp only [contentOf, children, Forest.children, List.map_cons, ih]; rfl
  | chars s c p rest ih => exact ih
  | misc m p rest ih => exact ih

theorem text_contentOf (f : Forest) : text (contentOf f) = f.text := by
  induction f with
  | nil => rfl
  | elem q as ns p ch ep rest _ ih => exact ih
  | chars s c p rest ih => simp only [contentOf, text, Forest.text, ih]
  | misc m p rest ih => exact ih

theorem named_count (env : Env) (n : EName) (f : Forest) :
    (named n (kids env f)).length = ((children (contentOf f)).map Child.name).count n := by
  rw [kids_children, children_contentOf]
  induction f.children with
  | nil => rfl
  | cons x l ih =>
    simp only [named, List.map_cons, List.filter_cons, List.count_cons] at ih ⊢
    have h1 : (Elem.kid env x).name = x.name.expanded := rfl
    have h2 : (childOf x).name = x.name.expanded := rfl
    rw [h1, h2]
    split <;> simp only [List.length_cons, ih, Nat.add_zero]

/-! ### Reading -/

theorem slot_read {P : Val → Prop} (s : Slot) (absent : Option Val) (ks : List Kid) (h : ∀ k ∈ ks, ∃ v, k.as s.ty = some v ∧ P v)
    (hc : s.card ≠ .many → ks.length ≤ 1) (ne : ks ≠ []) :
    ∃ v, slotValue s absent ks = some v ∧ CardOk s.card v ∧ (valuesOf s.card v).length = ks.length ∧ ∀ w ∈ valuesOf s.card v, P w := by
  cases ks with
  | nil => exact absurd rfl ne
  | cons k ks =>
    obtain ⟨v, h1, h2⟩ := h k List.mem_cons_self
    cases hs : s.card with
    | one =>
      have := hc (by simp [hs])
      have : ks = [] := List.eq_nil_of_length_eq_zero (by simp at this; exact List.length_eq_zero_iff.mpr this)
      subst this
      exact ⟨v, by simp [slotValue, hs, h1], trivial, rfl, by simpa [valuesOf] using h2⟩
    | opt =>
      have := hc (by simp [hs])
      have : ks = [] := List.eq_nil_of_length_eq_zero (by simp at this; exact List.length_eq_zero_iff.mpr this)
      subst this
      exact ⟨.opt (some v), by simp [slotValue, hs, h1], ⟨_, rfl⟩, rfl, by simpa [valuesOf] using h2⟩
    | many =>
      have : ∀ ks : List Kid, (∀ k ∈ ks, ∃ v, k.as s.ty = some v ∧ P v) → ∃ l, allAs s.ty ks = some l ∧ l.length = ks.length ∧ ∀ w ∈ l, P w := by
        intro ks
        induction ks with
        | nil => intro _; exact ⟨[], rfl, rfl, by simp⟩
        | cons k ks ih =>
          intro h
          obtain ⟨v, h1, h2⟩ := h k List.mem_cons_self
          obtain ⟨l, h3, h4, h5⟩ := ih fun k hk => h k (List.mem_cons_of_mem _ hk)
          refine ⟨v :: l, by simp [allAs, h1, h3], by simp [h4], ?_⟩
          intro w hw
          rcases List.mem_cons.mp hw with rfl | hw
          · exact h2
          · exact h5 w hw
      obtain ⟨l, h3, h4, h5⟩ := this (k :: ks) h
      exact ⟨.vec l, by simp [slotValue, hs, h3], ⟨_, rfl⟩, h4, h5⟩

theorem fields_read (env : Env) (all : List Field) (b : Body) {Q : Field → Val → Prop} (fields : List Field) (earlier : List Nat)
    (h : ∀ pre f post, fields = pre ++ f :: post → ∃ v, fieldValue env all b (earlier ++ flatTypes pre) f = some v ∧ Q f v) :
    ∃ vs, fieldsValue env all b earlier fields = some vs ∧ vs.length = fields.length ∧
      ∀ (p : Nat) f v, fields[p]? = some f → vs[p]? = some v → Q f v := by
  induction fields generalizing earlier with
  | nil => exact ⟨[], rfl, rfl, by simp⟩
  | cons f fs ih =>
    obtain ⟨v, h1, h2⟩ := h [] f fs rfl
    rw [show flatTypes [] = [] from rfl, List.append_nil] at h1
    obtain ⟨vs, h3, h4, h5⟩ := ih (earlier ++ flatTypes [f]) (by
      intro pre g post hp
      have := h (f :: pre) g post (by rw [hp]; rfl)
      rw [show f :: pre = [f] ++ pre from rfl, flatTypes_append, ← List.append_assoc] at this
      exact this)
    refine ⟨v :: vs, by simp [fieldsValue, h1, h3], by simp [h4], ?_⟩
    intro p g w hg hw
    cases p with
    | zero =>
      simp only [List.getElem?_cons_zero, Option.some.injEq] at hg hw
      subst hg hw
      exact h2
    | succ p => exact h5 p g w (by simpa using hg) (by simpa using hw)

theorem enum_read (env : Env) (hok : EnvOk env) (S : Schemas) (X : Nat → Ty) (e : Nat) (ds : List ElemDecl)
    (hr : Rowwise (VariantFor X) ds (env.enm e).variants) (ks : List Kid) {d : ElemDecl} (hd : d ∈ ds)
    (ha : d.Allows (named d.name ks).length) (ho : ∀ d' ∈ ds, d'.name ≠ d.name → named d'.name ks = [])
    (hk : ∀ k ∈ named d.name ks, ∀ ty, TypeFor X d.ty ty → ∃ v, k.as ty = some v ∧ Conforms env S (.type d.ty) ty v) :
    ∃ v, enumValue (env.enm e) ks = some v ∧ Conforms env S (.oneOf ds) (.enm e) v := by
  obtain ⟨w, hw, hn, s, hs, ht, hm, hmin⟩ := Gen.rowwise_left hr d hd
  obtain ⟨j, hj⟩ := List.getElem?_of_mem hw
  have hne : named d.name ks ≠ [] := by
    intro hc
    rw [hc] at ha
    have := ha.1
    simp at this
    omega
  obtain ⟨p, h1, h2, h3, h4⟩ := slot_read (P := Conforms env S (.type d.ty) s.ty) s none (named d.name ks) (fun k hk' => hk k hk' s.ty ht)
    (fun hc => ha.2 1 (hm hc)) hne
  refine ⟨.enm j (some p), ?_, .oneOf hd hj hn hs h2 (by rw [h3]; exact ha) h4⟩
  rw [enumValue_iff env hok]
  refine ⟨j, w, hj, by rwa [← hn], ?_, ?_⟩
  · intro w' hw' hne'
    obtain ⟨d', hd', hn', -⟩ := Gen.rowwise_right hr w' hw'
    rw [← hn', ← hn]
    by_cases hc : d'.name = d.name
    · exact hc
    · rw [← hn', ho d' hd' hc] at hne'
      exact absurd rfl hne'
  · rw [hs]
    exact ⟨p, by rw [← hn]; exact h1, rfl⟩

theorem flatTypes_filter (fields : List Field) : flatTypes (fields.filter fun f => !isAttribute f) = flatTypes fields := by
  induction fields with
  | nil => rfl
  | cons f fs ih =>
    cases hk : f.kind <;> simp [List.filter_cons, isAttribute, hk, flatTypes] <;> exact ih

theorem flatTypes_choices {env : Env} {S : Schemas} {X : Nat → Ty} {content : List Particle} {fs : List Field}
    (h : Rowwise (FieldFor env S X) content fs) : (flatTypes fs).length = (content.filter isChoice).length := by
  induction h with
  | nil => rfl
  | @cons p f l m h t ih =>
    cases p with
    | element d =>
      obtain ⟨-, s, hk, -⟩ := h
      simp [flatTypes, hk, isChoice, List.filter_cons, ih]
    | choice ds =>
      obtain ⟨e, hk, -⟩ := h
      simp [flatTypes, hk, isChoice, List.filter_cons, ih]

theorem flatTypes_none {pre post : List Field} {f : Field} {e : Nat} (hk : f.kind = .flatten e)
    (h : (flatTypes (pre ++ f :: post)).length ≤ 1) : flatTypes pre = [] := by
  rw [flatTypes_append] at h
  simp only [flatTypes, hk, List.length_append, List.length_cons] at h
  exact List.eq_nil_of_length_eq_zero (by omega)

theorem particle_of {env : Env} {S : Schemas} {X : Nat → Ty} {content : List Particle} {fields : List Field}
    (h : Rowwise (FieldFor env S X) content (fields.filter fun f => !isAttribute f)) {f : Field} (hf : f ∈ fields)
    (ha : isAttribute f = false) : ∃ p ∈ content, FieldFor env S X p f :=
  Gen.rowwise_right h f (List.mem_filter.mpr ⟨hf, by simp [ha]⟩)

theorem element_decls {content : List Particle} {d : ElemDecl} (h : .element d ∈ content) : d ∈ decls content :=
  List.mem_flatMap.mpr ⟨_, h, by simp⟩

theorem choice_decls {content : List Particle} {ds : List ElemDecl} {d : ElemDecl} (h : .choice ds ∈ content) (hd : d ∈ ds) : d ∈ decls content :=
  List.mem_flatMap.mpr ⟨_, h, by simpa using hd⟩

/-- A name of an element is not a name in a choice. -/
theorem element_not_choice {content : List Particle} (nd : ((decls content).map ElemDecl.name).Nodup) {d d' : ElemDecl} {ds : List ElemDecl}
    (h : .element d ∈ content) (h' : .choice ds ∈ content) (hd' : d' ∈ ds) : d.name ≠ d'.name := by
  induction content with
  | nil => simp at h
  | cons p ps ih =>
    rw [decls_cons, List.map_append, List.nodup_append] at nd
    obtain ⟨n1, n2, n3⟩ := nd
    rcases List.mem_cons.mp h with rfl | h0 <;> rcases List.mem_cons.mp h' with h' | h'
    · simp at h'
    · intro hc
      exact n3 d.name (by simp) _ (List.mem_map_of_mem (choice_decls h' hd')) hc
    · intro hc
      subst h'
      exact n3 d'.name (List.mem_map_of_mem hd') _ (List.mem_map_of_mem (element_decls h0)) hc.symm
    · exact ih n2 h0 h'

theorem choice_nodup {content : List Particle} (nd : ((decls content).map ElemDecl.name).Nodup) {ds : List ElemDecl}
    (h : .choice ds ∈ content) : (ds.map ElemDecl.name).Nodup := by
  induction content with
  | nil => simp at h
  | cons p ps ih =>
    rw [decls_cons, List.map_append, List.nodup_append] at nd
    rcases List.mem_cons.mp h with rfl | h
    · exact nd.1
    · exact ih nd.2.1 h

theorem nodup_name {l : List ElemDecl} (nd : (l.map ElemDecl.name).Nodup) {d d' : ElemDecl} (h : d ∈ l) (h' : d' ∈ l) (hn : d.name = d'.name) : d = d' := by
  induction l with
  | nil => simp at h
  | cons a l ih =>
    simp only [List.map_cons, List.nodup_cons] at nd
    rcases List.mem_cons.mp h with rfl | h0 <;> rcases List.mem_cons.mp h' with h' | h'
    · exact h'.symm
    · exact absurd (hn ▸ List.mem_map_of_mem h') nd.1
    · subst h'
      exact absurd (hn ▸ List.mem_map_of_mem h0) nd.1
    · exact ih nd.2 h0 h'

theorem choice_unique {content : List Particle} (h : (content.filter isChoice).length ≤ 1) {ds ds' : List ElemDecl} (h1 : .choice ds ∈ content)
    (h2 : .choice ds' ∈ content) : ds = ds' := by
  have m1 : Particle.choice ds ∈ content.filter isChoice := List.mem_filter.mpr ⟨h1, rfl⟩
  have m2 : Particle.choice ds' ∈ content.filter isChoice := List.mem_filter.mpr ⟨h2, rfl⟩
  match hl : content.filter isChoice, h with
  | [], _ => rw [hl] at m1; simp at m1
  | [a], _ =>
    rw [hl] at m1 m2
    simp only [List.mem_singleton] at m1 m2
    rw [← m2] at m1
    exact Particle.choice.inj m1
  | _ :: _ :: _, h => simp at h

theorem attr_read (u : AttrUse) (f : Field) (o : Bool) (t : TextTy) (hk : f.kind = .attribute o t) (hu : AttrFor u f) (as : List XAttr)
    (ha : AttrsValid [u] (attrsOf (attrsNamed f.name.expanded as)) ) :
    ∃ v, attrValue o t (f.default.or (attrAbsent o)) (attrsNamed f.name.expanded as) = some v ∧ AttrConforms u o t v := by
  obtain ⟨hn, o', t', hk', ht, hreq, hdef⟩ := hu
  rw [hk] at hk'
  cases hk'
  match hl : attrsNamed f.name.expanded as with
  | [] =>
    rw [hl] at ha
    have hnr : u.required = false := by
      cases hr : u.required
      · rfl
      · obtain ⟨a, h1, -⟩ := ha.required u (by simp) hr
        simp [attrsOf] at h1
    simp only [attrValue]
    cases hd : f.default with
    | some v => exact ⟨v, rfl, hdef v hd⟩
    | none =>
      simp only [hnr, hd, Option.isSome_none, Bool.false_eq_true, or_false, false_or] at hreq
      subst hreq
      exact ⟨.opt none, rfl, .inl rfl, by simp [attrText], by simp [hnr]⟩
  | [a] =>
    rw [hl] at ha
    have han : a.name.expanded = f.name.expanded := by
      have : a ∈ attrsNamed f.name.expanded as := by rw [hl]; simp
      simpa [attrsNamed] using (List.mem_filter.mp this).2
    have hlex := ha.typed (a.name.expanded, a.value) (by simp [attrsOf]) u (by simp) (by rw [hn, han])
    obtain ⟨tv, s', h1, h2, h3⟩ := ht _ hlex
    simp only [attrValue, h1]
    cases o with
    | false =>
      refine ⟨.text tv, rfl, ⟨tv, rfl, by simp [h2]⟩, ?_, ?_⟩
      · intro s hs
        simp only [attrText, Bool.false_eq_true, if_false, h2, Option.some.injEq] at hs
        exact hs ▸ h3
      · simp [attrText, h2]
    | true =>
      refine ⟨.opt (some (.text tv)), rfl, .inr ⟨_, rfl, tv, rfl, by simp [h2]⟩, ?_, ?_⟩
      · intro s hs
        simp only [attrText, if_true, h2, Option.some.injEq] at hs
        exact hs ▸ h3
      · simp [attrText, h2]
  | a :: b :: l =>
    have hall : ∀ c ∈ attrsNamed f.name.expanded as, c.name.expanded = f.name.expanded := by
      intro c hc
      simpa [attrsNamed] using (List.mem_filter.mp hc).2
    rw [hl] at ha hall
    have := ha.once
    simp [attrsOf, hall a (by simp), hall b (by simp)] at this

theorem attrsValid_named {uses : List AttrUse} {as : List XAttr} (h : AttrsValid uses (attrsOf as)) {u : AttrUse} (hu : u ∈ uses) :
    AttrsValid [u] (attrsOf (attrsNamed u.name as)) := by
  have hsub : ∀ a ∈ attrsOf (attrsNamed u.name as), a ∈ attrsOf as ∧ a.1 = u.name := by
    intro a ha
    obtain ⟨b, hb, rfl⟩ := List.mem_map.mp ha
    obtain ⟨h1, h2⟩ := List.mem_filter.mp hb
    exact ⟨List.mem_map_of_mem h1, by simpa using h2⟩
  refine ⟨?_, ?_, ?_, ?_⟩
  · refine List.Sublist.nodup ?_ h.once
    unfold attrsOf attrsNamed
    exact (List.filter_sublist.map _).map _
  · intro a ha
    exact .inl ⟨u, by simp, (hsub a ha).2.symm⟩
  · intro a ha u' hu' hn
    simp only [List.mem_singleton] at hu'
    subst hu'
    exact h.typed a (hsub a ha).1 u' hu hn
  · intro u' hu' hr
    simp only [List.mem_singleton] at hu'
    subst hu'
    obtain ⟨a, h1, h2⟩ := h.required u' hu hr
    obtain ⟨b, hb, rfl⟩ := List.mem_map.mp h1
    exact ⟨_, List.mem_map_of_mem (List.mem_filter.mpr ⟨hb, by simpa using h2⟩), h2⟩

/-- Valid content can be read, as a conforming value. -/
theorem valid_read {env : Env} (hok : EnvOk env) {S : Schemas} {X : Nat → Ty} (hX : Translates env S X) {x : XTy}
    {as : List (EName × String)} {g : EForest} (h : Valid S x as g) :
    ∀ e : Elem, attrsOf e.attrs = as → contentOf e.children = g → ∀ ty, TypeFor X x ty →
      ∃ v, bodyValue env (e.body env) ty = some v ∧ Conforms env S (.type x) ty v := by
  induction h with
  | @simple lex attrs g ha hc ht =>
    rintro e rfl rfl ty hty
    cases ty with
    | strct j => exact hty.elim
    | enm j => exact hty.elim
    | text t =>
      rw [children_contentOf, List.map_eq_nil_iff] at hc
      rw [text_contentOf] at ht
      obtain ⟨tv, s', h1, h2, h3⟩ := hty _ ht
      refine ⟨.text tv, ?_, .simple h2 h3⟩
      simp only [Elem.body, bodyValue, kids_children, hc, List.map_nil, h1]
  | @complex i attrs g ha ht hl hc ih =>
    rintro e rfl rfl ty hty
    have hX' := hX.types i
    simp only [TypeFor] at hty
    rw [← hty] at hX'
    -- the children of a declaration
    have hkid : ∀ d ∈ decls (S i).content, ∀ k ∈ named d.name (kids env e.children), ∀ ty, TypeFor X d.ty ty →
        ∃ v, k.as ty = some v ∧ Conforms env S (.type d.ty) ty v := by
      intro d hd k hk ty hty
      obtain ⟨h1, h2⟩ := List.mem_filter.mp hk
      rw [kids_children] at h1
      obtain ⟨y, hy, rfl⟩ := List.mem_map.mp h1
      have hn : y.name.expanded = d.name := eq_of_beq h2
      exact ih (childOf y) (by rw [children_contentOf]; exact List.mem_map_of_mem hy) d hd hn.symm y rfl rfl ty hty
    have hone : ∀ d, .element d ∈ (S i).content → d.Allows (named d.name (kids env e.children)).length := by
      intro d hd
      rw [named_count]
      exact lang_element hl (hX.names i) hd
    have hch : ∀ ds, .choice ds ∈ (S i).content → ∃ d ∈ ds, d.Allows (named d.name (kids env e.children)).length ∧
        ∀ d' ∈ ds, d'.name ≠ d.name → named d'.name (kids env e.children) = [] := by
      intro ds hds
      obtain ⟨d, h1, h2, h3⟩ := lang_choice hl (hX.names i) hds
      refine ⟨d, h1, by rw [named_count]; exact h2, fun d' hd' hn => ?_⟩
      apply List.eq_nil_of_length_eq_zero
      rw [named_count]
      exact h3 d' hd' hn
    cases ty with
    | text t => exact hX'.elim
    | enm j =>
      obtain ⟨-, ds, hds, hr⟩ := hX'
      obtain ⟨d, h1, h2, h3⟩ := hch ds (by rw [hds]; simp)
      obtain ⟨v, h4, h5⟩ := enum_read env hok S X j ds hr (kids env e.children) h1 h2 h3
        (hkid d (choice_decls (by rw [hds]; simp) h1))
      exact ⟨v, h4, .enm hds h5⟩
    | strct j =>
      obtain ⟨hf, hat⟩ := hX'
      have key := fields_read env (env.strct j).fields (e.body env) (Q := fun f v =>
        (∀ o t, f.kind = .attribute o t → ∀ u ∈ (S i).attrs, u.name = f.name.expanded → AttrConforms u o t v) ∧
        (∀ s, f.kind = .element s → CardOk s.card v ∧ ∀ d, .element d ∈ (S i).content → d.name = f.name.expanded →
          d.Allows (valuesOf s.card v).length ∧ ∀ w ∈ valuesOf s.card v, Conforms env S (.type d.ty) s.ty w) ∧
        (∀ e', f.kind = .flatten e' → ∀ ds, .choice ds ∈ (S i).content → Conforms env S (.oneOf ds) (.enm e') v))
        (env.strct j).fields [] (by
          intro pre f post hsplit
          have hmem : f ∈ (env.strct j).fields := by rw [hsplit]; simp
          cases hk : f.kind with
          | text t => exact absurd hk (hok.noText j f t hmem)
          | «attribute» o t =>
            obtain ⟨u, hu, hua⟩ := Gen.rowwise_right hat f (List.mem_filter.mpr ⟨hmem, by simp [isAttribute, hk]⟩)
            obtain ⟨v, h1, h2⟩ := attr_read u f o t hk hua e.attrs (by rw [← hua.1]; exact attrsValid_named ha hu)
            refine ⟨v, by simp only [fieldValue, hk, Elem.body]; exact h1, ?_, by simp, by simp⟩
            rintro o' t' ho u' hu' hn'
            cases ho
            obtain ⟨f', hf', hua'⟩ := Gen.rowwise_left hat u' hu'
            obtain ⟨hf1, hf2⟩ := List.mem_filter.mp hf'
            have hff : f' = f := by
              obtain ⟨p, hp⟩ := List.getElem?_of_mem hmem
              obtain ⟨q, hq⟩ := List.getElem?_of_mem hf1
              obtain ⟨hn1, o1, t1, hk1, -⟩ := hua'
              have := hok.attrs j p q f f' o t o1 t1 hp hq hk hk1 (by rw [← hn', hn1])
              subst this
              rw [hp] at hq
              exact (Option.some.inj hq).symm
            subst hff
            obtain ⟨v', h3, h4⟩ := attr_read u' f' o t hk hua' e.attrs (by rw [← hn']; exact attrsValid_named ha hu')
            rw [h1] at h3
            cases h3
            exact h4
          | element s =>
            obtain ⟨p, hp, hpf⟩ := particle_of hf hmem (by simp [isAttribute, hk])
            cases p with
            | choice ds => obtain ⟨e', he', -⟩ := hpf; rw [hk] at he'; cases he'
            | element d =>
              obtain ⟨hn, s', hk', hty', ⟨hc1, hc2⟩, hdef⟩ := hpf
              rw [hk] at hk'
              cases hk'
              have hall := hone d hp
              have : ∃ v, slotValue s (f.default.or (slotAbsent s)) (named d.name (kids env e.children)) = some v ∧ CardOk s.card v ∧
                  d.Allows (valuesOf s.card v).length ∧ ∀ w ∈ valuesOf s.card v, Conforms env S (.type d.ty) s.ty w := by
                by_cases hne : named d.name (kids env e.children) = []
                · rw [hne] at hall ⊢
                  simp only [slotValue]
                  cases hd : f.default with
                  | some v => exact ⟨v, rfl, hdef v hd⟩
                  | none =>
                    cases hcard : s.card with
                    | one =>
                      have := hc2 hcard (by simp [hd])
                      have := hall.1
                      simp at this
                      omega
                    | opt => exact ⟨.opt none, by simp [slotAbsent, hcard], ⟨_, rfl⟩, hall, by simp [valuesOf]⟩
                    | many => exact ⟨.vec [], by simp [slotAbsent, hcard], ⟨_, rfl⟩, hall, by simp [valuesOf]⟩
                · obtain ⟨v, h1, h2, h3, h4⟩ := slot_read (P := Conforms env S (.type d.ty) s.ty) s (f.default.or (slotAbsent s)) _
                    (fun k hk => hkid d (element_decls hp) k hk s.ty hty') (fun hc => hall.2 1 (hc1 hc)) hne
                  exact ⟨v, h1, h2, by rw [h3]; exact hall, h4⟩
              obtain ⟨v, h1, h2, h3, h4⟩ := this
              refine ⟨v, by simp only [fieldValue, hk, Elem.body, ← hn]; exact h1, by simp, ?_, by simp⟩
              intro s' hs'
              cases hs'
              refine ⟨h2, fun d' hd' hn' => ?_⟩
              have := nodup_name (hX.names i) (element_decls hd') (element_decls hp) (by rw [hn', hn])
              subst this
              exact ⟨h3, h4⟩
          | flatten e' =>
            obtain ⟨p, hp, hpf⟩ := particle_of hf hmem (by simp [isAttribute, hk])
            cases p with
            | element d => obtain ⟨-, s, hk', -⟩ := hpf; rw [hk] at hk'; cases hk'
            | choice ds =>
              obtain ⟨e'', hk', hr⟩ := hpf
              rw [hk] at hk'
              cases hk'
              have hpre : flatTypes pre = [] := by
                refine flatTypes_none (post := post) hk ?_
                rw [← hsplit, ← flatTypes_filter, flatTypes_choices hf]
                exact hX.one i
              have hstr : ∀ d ∈ ds, named d.name (strangers (env.strct j).fields (kids env e.children)) = named d.name (kids env e.children) := by
                intro d hd
                rw [named_strangers, if_neg]
                simp only [declaredElem, List.any_eq_true, not_exists, not_and]
                intro f' hf' hcon
                split at hcon
                · rename_i s' hk'
                  obtain ⟨p', hp', hpf'⟩ := particle_of hf hf' (by simp [isAttribute, hk'])
                  cases p' with
                  | choice ds' => obtain ⟨e', he', -⟩ := hpf'; rw [hk'] at he'; cases he'
                  | element d' =>
                    have : d'.name = d.name := by rw [hpf'.1]; simpa using hcon
                    exact element_not_choice (hX.names i) hp' hp hd this
                · simp at hcon
              obtain ⟨d, h1, h2, h3⟩ := hch ds hp
              obtain ⟨v, h4, h5⟩ := enum_read env hok S X e' ds hr (strangers (env.strct j).fields (kids env e.children)) h1
                (by rw [hstr d h1]; exact h2) (fun d' hd' hn => by rw [hstr d' hd']; exact h3 d' hd' hn)
                (by rw [hstr d h1]; exact hkid d (choice_decls hp h1))
              refine ⟨v, by simp only [fieldValue, hk, Elem.body, hpre, List.append_nil, past]; exact h4, by simp, by simp, ?_⟩
              intro e'' he'' ds' hds'
              cases he''
              rw [choice_unique (hX.one i) hds' hp]
              exact h5)
      obtain ⟨vs, h1, h2, h3⟩ := key
      refine ⟨.strct vs, by simp only [bodyValue, structValue, h1, Option.map_some], .strct h2 ?_ ?_ ?_ ?_ ?_⟩
      · intro p f v o t hf hv hk
        exact (h3 p f v hf hv).1 o t hk
      · intro p f s v hf hv hk
        exact ((h3 p f v hf hv).2.1 s hk).1
      · intro p f s v d hf hv hk hd hn
        exact (((h3 p f v hf hv).2.1 s hk).2 d hd hn).1
      · intro p f s v w d hf hv hk hd hn hw
        exact (((h3 p f v hf hv).2.1 s hk).2 d hd hn).2 w hw
      · intro p f e' v ds hf hv hk hds
        exact (h3 p f v hf hv).2.2 e' hk ds hds

/-! ### Writing -/

theorem shows_append {env : Env} {l l' : List Item} {f g : EForest} (h : Shows env l f) (h' : Shows env l' g) : Shows env (l ++ l') (f.append g) := by
  induction h with
  | nil => exact h'
  | unit _ ih => exact .unit ih
  | text ht _ ih => exact .text ht ih
  | strct hc _ _ ih => exact .strct hc ih
  | enm hc _ _ ih => exact .enm hc ih

theorem children_append (f g : EForest) : children (f.append g) = children f ++ children g := by
  induction f with
  | nil => rfl
  | elem n a c rest _ ih => simp only [EForest.append, children, ih, List.cons_append]
  | chars s rest ih => exact ih

theorem text_append (f g : EForest) : text (f.append g) = text f ++ text g := by
  induction f with
  | nil => simp [EForest.append, text]
  | elem n a c rest _ ih => exact ih
  | chars s rest ih => simp only [EForest.append, text, ih, String.append_assoc]

/-- Items are written as valid elements with these names. -/
def Written (env : Env) (S : Schemas) (D : List ElemDecl) (l : List Item) (names : List EName) : Prop :=
  ∃ g, Shows env l g ∧ text g = "" ∧ (children g).map Child.name = names ∧
    ∀ c ∈ children g, ∃ d ∈ D, d.name = c.name ∧ Valid S d.ty c.attrs c.content

theorem written_nil {env : Env} {S : Schemas} {D : List ElemDecl} : Written env S D [] [] := ⟨.nil, .nil, rfl, rfl, by simp [children]⟩

theorem written_append {env : Env} {S : Schemas} {D : List ElemDecl} {l l' : List Item} {w w' : List EName} (h : Written env S D l w)
    (h' : Written env S D l' w') : Written env S D (l ++ l') (w ++ w') := by
  obtain ⟨g, h1, h2, h3, h4⟩ := h
  obtain ⟨g', h1', h2', h3', h4'⟩ := h'
  refine ⟨g.append g', shows_append h1 h1', by rw [text_append, h2, h2']; rfl, by rw [children_append, List.map_append, h3, h3'], ?_⟩
  rw [children_append]
  intro c hc
  rcases List.mem_append.mp hc with hc | hc
  · exact h4 c hc
  · exact h4' c hc

theorem written_mono {env : Env} {S : Schemas} {D D' : List ElemDecl} {l : List Item} {w : List EName} (h : Written env S D l w) (hD : ∀ d ∈ D, d ∈ D') :
    Written env S D' l w := by
  obtain ⟨g, h1, h2, h3, h4⟩ := h
  refine ⟨g, h1, h2, h3, fun c hc => ?_⟩
  obtain ⟨d, h5, h6⟩ := h4 c hc
  exact ⟨d, hD d h5, h6⟩

/-- A value is written as a valid element. -/
def WrittenAs (env : Env) (S : Schemas) (x : XTy) (ty : Ty) (v : Val) : Prop :=
  ∀ name, ∃ as g, Represents env name ty v as g ∧ Valid S x as g

theorem written_fieldItems {env : Env} {S : Schemas} {d : ElemDecl} {s : Slot} {v : Val}
    (h : ∀ w ∈ valuesOf s.card v, WrittenAs env S d.ty s.ty w) :
    Written env S [d] (fieldItems s d.name v) (List.replicate (valuesOf s.card v).length d.name) := by
  unfold fieldItems
  revert h
  induction valuesOf s.card v with
  | nil => intro _; exact written_nil
  | cons w l ih =>
    intro h
    obtain ⟨as, g, h1, h2⟩ := h w List.mem_cons_self d.name
    rw [show (w :: l).map (fun x => ({ name := d.name, value := some (s.ty, x) } : Item)) =
      [{ name := d.name, value := some (s.ty, w) }] ++ l.map (fun x => ({ name := d.name, value := some (s.ty, x) } : Item)) from rfl,
      List.length_cons, List.replicate_succ, show d.name :: List.replicate l.length d.name = [d.name] ++ List.replicate l.length d.name from rfl]
    refine written_append ⟨_, h1, rfl, rfl, ?_⟩ (ih fun w hw => h w (List.mem_cons_of_mem _ hw))
    intro c hc
    simp only [children, List.mem_singleton] at hc
    subst hc
    exact ⟨d, by simp, rfl, h2⟩

theorem lang_append {ps qs : List Particle} {u v : List EName} (h : Lang ps u) (h' : Lang qs v) : Lang (ps ++ qs) (u ++ v) := by
  induction ps generalizing u with
  | nil => simp only [Lang] at h; subst h; exact h'
  | cons p ps ih =>
    obtain ⟨u1, u2, rfl, h1, h2⟩ := h
    exact ⟨u1, u2 ++ v, by simp, h1, ih h2⟩

/-- The element fields. -/
theorem written_elems {env : Env} {S : Schemas} {X : Nat → Ty} {D : List ElemDecl} (fields : List Field) (vs : List Val) (content : List Particle)
    (hr : Rowwise (FieldFor env S X) content (fields.filter fun f => !isAttribute f)) (hlen : vs.length = fields.length)
    (hD : ∀ d, .element d ∈ content → d ∈ D)
    (h : ∀ x ∈ fields.zip vs, ∀ s d, x.1.kind = .element s → .element d ∈ content → d.name = x.1.name.expanded →
      d.Allows (valuesOf s.card x.2).length ∧ ∀ w ∈ valuesOf s.card x.2, WrittenAs env S d.ty s.ty w) :
    ∃ w, Lang (content.filter fun p => !isChoice p) w ∧ Written env S D ((fields.zip vs).flatMap fun x =>
      match x.1.kind with
      | .element s => fieldItems s x.1.name.expanded x.2
      | _ => []) w := by
  induction fields generalizing vs content with
  | nil =>
    cases hr
    exact ⟨[], rfl, written_nil⟩
  | cons f fs ih =>
    cases vs with
    | nil => simp at hlen
    | cons v vs =>
      simp only [List.length_cons, Nat.add_right_cancel_iff] at hlen
      simp only [List.zip_cons_cons, List.flatMap_cons]
      cases ha : isAttribute f with
      | true =>
        rw [List.filter_cons, ha] at hr
        obtain ⟨w, h1, h2⟩ := ih vs content hr hlen hD fun x hx => h x (by simp [hx])
        refine ⟨w, h1, ?_⟩
        have : (match f.kind with | .element s => fieldItems s f.name.expanded v | _ => []) = [] := by
          unfold isAttribute at ha
          split at ha
          · rename_i hk; simp [hk]
          · simp at ha
        rw [this]
        exact h2
      | false =>
        rw [List.filter_cons, ha] at hr
        simp only [Bool.not_false, if_true] at hr
        cases hr with
        | @cons p _ ps _ hp hr =>
        obtain ⟨w, h1, h2⟩ := ih vs ps hr hlen (fun d hd => hD d (by simp [hd])) fun x hx s d hk hd => h x (by simp [hx]) s d hk (by simp [hd])
        cases p with
        | element d =>
          obtain ⟨hn, s, hk, -⟩ := hp
          obtain ⟨h3, h4⟩ := h (f, v) (by simp) s d hk (by simp) hn
          refine ⟨List.replicate (valuesOf s.card v).length d.name ++ w, ⟨_, _, rfl, ⟨_, h3, rfl⟩, h1⟩, ?_⟩
          simp only [hk, ← hn]
          exact written_append (written_mono (written_fieldItems h4) (by simpa using hD d (by simp))) h2
        | choice ds =>
          obtain ⟨e, hk, -⟩ := hp
          refine ⟨w, h1, ?_⟩
          simp only [hk]
          exact h2

/-- The flattened fields. -/
theorem written_flats {env : Env} {S : Schemas} {X : Nat → Ty} {D : List ElemDecl} (fields : List Field) (vs : List Val) (content : List Particle)
    (hr : Rowwise (FieldFor env S X) content (fields.filter fun f => !isAttribute f)) (hlen : vs.length = fields.length)
    (h : ∀ x ∈ fields.zip vs, ∀ e ds, x.1.kind = .flatten e → .choice ds ∈ content → Rowwise (VariantFor X) ds (env.enm e).variants →
      ∃ w, Particle.Lang (.choice ds) w ∧ Written env S D (variantItems (env.enm e) x.2) w) :
    ∃ w, Lang (content.filter isChoice) w ∧ Written env S D ((fields.zip vs).flatMap fun x =>
      match x.1.kind with
      | .flatten e => variantItems (env.enm e) x.2
      | _ => []) w := by
  induction fields generalizing vs content with
  | nil =>
    cases hr
    exact ⟨[], rfl, written_nil⟩
  | cons f fs ih =>
    cases vs with
    | nil => simp at hlen
    | cons v vs =>
      simp only [List.length_cons, Nat.add_right_cancel_iff] at hlen
      simp only [List.zip_cons_cons, List.flatMap_cons]
      cases ha : isAttribute f with
      | true =>
        rw [List.filter_cons, ha] at hr
        obtain ⟨w, h1, h2⟩ := ih vs content hr hlen fun x hx => h x (by simp [hx])
        refine ⟨w, h1, ?_⟩
        have : (match f.kind with | .flatten e => variantItems (env.enm e) v | _ => []) = [] := by
          unfold isAttribute at ha
          split at ha
          · rename_i hk; simp [hk]
          · simp at ha
        rw [this]
        exact h2
      | false =>
        rw [List.filter_cons, ha] at hr
        simp only [Bool.not_false, if_true] at hr
        cases hr with
        | @cons p _ ps _ hp hr =>
        obtain ⟨w, h1, h2⟩ := ih vs ps hr hlen fun x hx e ds hk hd => h x (by simp [hx]) e ds hk (by simp [hd])
        cases p with
        | element d =>
          obtain ⟨hn, s, hk, -⟩ := hp
          refine ⟨w, h1, ?_⟩
          simp only [hk]
          exact h2
        | choice ds =>
          obtain ⟨e, hk, hv⟩ := hp
          obtain ⟨w', h3, h4⟩ := h (f, v) (by simp) e ds hk (by simp) hv
          refine ⟨w' ++ w, ⟨_, _, rfl, h3, h1⟩, ?_⟩
          simp only [hk]
          exact written_append h4 h2

theorem structAttrs_once {env : Env} (hok : EnvOk env) (j : Nat) (vs : List Val) :
    ((structAttrs (env.strct j).fields vs).map Prod.fst).Nodup := by
  have key : ∀ (fs : List Field) (vs : List Val), (∀ (p q : Nat) (f g : Field) o t o' t', fs[p]? = some f → fs[q]? = some g →
      f.kind = .attribute o t → g.kind = .attribute o' t' → f.name.expanded = g.name.expanded → p = q) →
      ((structAttrs fs vs).map Prod.fst).Nodup := by
    intro fs
    induction fs with
    | nil => intro vs _; simp [structAttrs]
    | cons f fs ih =>
      intro vs h
      cases vs with
      | nil => simp [structAttrs]
      | cons v vs =>
        have hrest := ih vs fun p q f g o t o' t' hf hg hk hk' hn =>
          Nat.add_right_cancel (h (p + 1) (q + 1) f g o t o' t' (by simpa using hf) (by simpa using hg) hk hk' hn)
        have hnot : ∀ o t, f.kind = .attribute o t → f.name.expanded ∉ (structAttrs fs vs).map Prod.fst := by
          intro o t hk hm
          obtain ⟨a, ha, hn⟩ := List.mem_map.mp hm
          obtain ⟨x, hx, hxa⟩ := List.mem_filterMap.mp ha
          split at hxa
          · rename_i o' t' hk'
            obtain ⟨s, hs, rfl⟩ := Option.map_eq_some_iff.mp hxa
            obtain ⟨q, hq⟩ := List.mem_iff_getElem?.mp hx
            rw [List.getElem?_zip_eq_some] at hq
            have := h 0 (q + 1) f x.1 o t o' t' rfl (by simpa using hq.1) hk hk' hn.symm
            omega
          · simp at hxa
        cases hk : f.kind with
        | «attribute» o t =>
          cases hv : attrText o t v with
          | none => simpa [structAttrs, hk, hv] using hrest
          | some s =>
            have := hnot o t hk
            simp only [structAttrs, List.zip_cons_cons, List.filterMap_cons, hk, hv, Option.map_some, List.map_cons, List.nodup_cons]
            exact ⟨this, hrest⟩
        | _ => simpa [structAttrs, hk] using hrest
  exact key _ vs fun p q f g o t o' t' => hok.attrs j p q f g o t o' t'

/-- What the writing of a value comes to, by what it belongs to. -/
def OfWritten (env : Env) (S : Schemas) (X : Nat → Ty) : Of → Ty → Val → Prop
  | .type x, ty, v => TypeFor X x ty → WrittenAs env S x ty v ∧ HasTy env ty v
  | .oneOf ds, .enm e, v => (ds.map ElemDecl.name).Nodup → Rowwise (VariantFor X) ds (env.enm e).variants →
      (∃ w, Particle.Lang (.choice ds) w ∧ Written env S ds (variantItems (env.enm e) v) w) ∧ HasTy env (.enm e) v ∧ ∃ j p, v = .enm j p
  | .oneOf _, _, _ => True

theorem conforms_written {env : Env} (hok : EnvOk env) {S : Schemas} {X : Nat → Ty} (hX : Translates env S X) (hlast : ChoicesLast S)
    {x : Of} {ty : Ty} {v : Val} (h : Conforms env S x ty v) : OfWritten env S X x ty v := by
  induction h with
  | @simple lex t tv s h hl =>
    intro _
    refine ⟨fun name => ⟨_, _, .text h .nil, .simple ⟨by simp, by simp, by simp, by simp⟩ rfl ?_⟩, .text (by rw [h]; rfl)⟩
    simpa [text] using hl
  | @enm i e ds v hc h ih =>
    intro hty
    have hX' := hX.types i
    simp only [TypeFor] at hty
    rw [← hty] at hX'
    obtain ⟨ha, ds', hds, hr⟩ := hX'
    rw [hc] at hds
    cases hds
    obtain ⟨⟨w, h1, g, h2, h3, h4, h5⟩, h6, j, p, rfl⟩ := ih (choice_nodup (hX.names i) (by rw [hc]; simp)) hr
    refine ⟨fun name => ⟨_, g, .enm h2 .nil, .complex ⟨by simp, by simp, by simp, by simp [ha]⟩ (by simp [h3, Blank]) ?_ ?_⟩, h6⟩
    · rw [hc, h4]
      exact ⟨w, [], by simp, h1, rfl⟩
    · intro c hcm d hd hn
      obtain ⟨d', h7, h8, h9⟩ := h5 c hcm
      have : d' = d := nodup_name (hX.names i) (by rw [hc]; simpa [decls] using h7) hd (by rw [h8, hn])
      subst this
      exact h9
  | @oneOf e j ds d w s p hd hv hn hs card count items ih =>
    intro nd hr
    have hw : w ∈ (env.enm e).variants := List.mem_of_getElem? hv
    have hskip := hok.noSkip e w hw
    obtain ⟨d', hd', hn', s', hs', ht, -⟩ := Gen.rowwise_right hr w hw
    rw [hs] at hs'
    cases hs'
    have hdd : d' = d := nodup_name nd hd' hd (by rw [hn', hn])
    subst hdd
    refine ⟨⟨_, ⟨d', hd', _, count, rfl⟩, ?_⟩, .payload hv hs card fun x hx => (ih x hx ht).2, j, _, rfl⟩
    simp only [variantItems, hv, hskip, hs, Bool.false_eq_true, if_false, ← hn]
    exact written_mono (written_fieldItems fun x hx => (ih x hx ht).1) (by simpa using hd')
  | @strct i j vs len attrs card counts elems flats ihe ihf =>
    intro hty
    have hX' := hX.types i
    simp only [TypeFor] at hty
    rw [← hty] at hX'
    obtain ⟨hf, hat⟩ := hX'
    have hpart : ∀ (p : Nat) (f : Field) (s : Slot), (env.strct j).fields[p]? = some f → f.kind = .element s →
        ∃ d, .element d ∈ (S i).content ∧ d.name = f.name.expanded ∧ TypeFor X d.ty s.ty := by
      intro p f s hp hk
      obtain ⟨q, hq, hqf⟩ := particle_of hf (List.mem_of_getElem? hp) (by simp [isAttribute, hk])
      cases q with
      | choice ds => obtain ⟨e', he', -⟩ := hqf; rw [hk] at he'; cases he'
      | element d =>
        obtain ⟨hn, s', hk', ht, -⟩ := hqf
        rw [hk] at hk'
        cases hk'
        exact ⟨d, hq, hn, ht⟩
    have hpartf : ∀ (p : Nat) (f : Field) (e : Nat), (env.strct j).fields[p]? = some f → f.kind = .flatten e →
        ∃ ds, .choice ds ∈ (S i).content ∧ Rowwise (VariantFor X) ds (env.enm e).variants := by
      intro p f e hp hk
      obtain ⟨q, hq, hqf⟩ := particle_of hf (List.mem_of_getElem? hp) (by simp [isAttribute, hk])
      cases q with
      | element d => obtain ⟨-, s, hk', -⟩ := hqf; rw [hk] at hk'; cases hk'
      | choice ds =>
        obtain ⟨e', hk', hr⟩ := hqf
        rw [hk] at hk'
        cases hk'
        exact ⟨ds, hq, hr⟩
    have hattr : ∀ (p : Nat) (f : Field) (v : Val) o t, (env.strct j).fields[p]? = some f → vs[p]? = some v → f.kind = .attribute o t →
        ∃ u ∈ (S i).attrs, u.name = f.name.expanded ∧ AttrConforms u o t v := by
      intro p f v o t hp hv hk
      obtain ⟨u, hu, hua⟩ := Gen.rowwise_right hat f (List.mem_filter.mpr ⟨List.mem_of_getElem? hp, by simp [isAttribute, hk]⟩)
      exact ⟨u, hu, hua.1, attrs p f v o t hp hv hk u hu hua.1⟩
    have hzip : ∀ x ∈ (env.strct j).fields.zip vs, ∃ p : Nat, (env.strct j).fields[p]? = some x.1 ∧ vs[p]? = some x.2 := by
      intro x hx
      obtain ⟨p, hp⟩ := List.mem_iff_getElem?.mp hx
      rw [List.getElem?_zip_eq_some] at hp
      exact ⟨p, hp⟩
    have hhas : HasTy env (.strct j) (.strct vs) := by
      refine .strct len ?_ ?_ ?_
      · intro p f v hp hv
        cases hk : f.kind with
        | element s => exact card p f s v hp hv hk
        | «attribute» o t =>
          obtain ⟨u, -, -, h1, -⟩ := hattr p f v o t hp hv hk
          exact h1
        | flatten e => trivial
        | text t => exact absurd hk (hok.noText j f t (List.mem_of_getElem? hp))
      · intro p f s v w hp hv hk hw
        obtain ⟨d, h1, h2, h3⟩ := hpart p f s hp hk
        exact (ihe p f s v w d hp hv hk h1 h2 hw h3).2
      · intro p f e v hp hv hk
        obtain ⟨ds, h1, h2⟩ := hpartf p f e hp hk
        exact (ihf p f e v ds hp hv hk h1 (choice_nodup (hX.names i) h1) h2).2.1
    refine ⟨fun name => ?_, hhas⟩
    obtain ⟨w1, hl1, hw1⟩ := written_elems (D := decls (S i).content) (env.strct j).fields vs (S i).content hf len (fun d => element_decls) (by
      intro x hx s d hk hd hn
      obtain ⟨p, hp, hv⟩ := hzip x hx
      refine ⟨counts p x.1 s x.2 d hp hv hk hd hn, fun w hw => ?_⟩
      obtain ⟨d', h1, h2, h3⟩ := hpart p x.1 s hp hk
      have : d' = d := nodup_name (hX.names i) (element_decls h1) (element_decls hd) (by rw [h2, hn])
      subst this
      exact (ihe p x.1 s x.2 w d' hp hv hk h1 h2 hw h3).1)
    obtain ⟨w2, hl2, hw2⟩ := written_flats (D := decls (S i).content) (env.strct j).fields vs (S i).content hf len (by
      intro x hx e ds hk hd hr
      obtain ⟨p, hp, hv⟩ := hzip x hx
      obtain ⟨⟨w, h1, h2⟩, -⟩ := ihf p x.1 e x.2 ds hp hv hk hd (choice_nodup (hX.names i) hd) hr
      exact ⟨w, h1, written_mono h2 fun d => choice_decls hd⟩)
    obtain ⟨g, h1, h2, h3, h4⟩ := written_append hw1 hw2
    refine ⟨_, g, .strct h1 .nil, .complex ?_ (by simp [h2, Blank]) ?_ ?_⟩
    · refine ⟨structAttrs_once hok j vs, ?_, ?_, ?_⟩
      · intro a ha
        obtain ⟨x, hx, hxa⟩ := List.mem_filterMap.mp ha
        split at hxa
        · rename_i o t hk
          obtain ⟨s, hs, rfl⟩ := Option.map_eq_some_iff.mp hxa
          obtain ⟨p, hp, hv⟩ := hzip x hx
          obtain ⟨u, hu, hn, -⟩ := hattr p x.1 x.2 o t hp hv hk
          exact .inl ⟨u, hu, hn⟩
        · simp at hxa
      · intro a ha u hu hn
        obtain ⟨x, hx, hxa⟩ := List.mem_filterMap.mp ha
        split at hxa
        · rename_i o t hk
          obtain ⟨s, hs, rfl⟩ := Option.map_eq_some_iff.mp hxa
          obtain ⟨p, hp, hv⟩ := hzip x hx
          exact (attrs p x.1 x.2 o t hp hv hk u hu hn).2.1 s hs
        · simp at hxa
      · intro u hu hreq
        obtain ⟨f, hfm, hn, o, t, hk, -⟩ := Gen.rowwise_left hat u hu
        obtain ⟨p, hp⟩ := List.getElem?_of_mem (List.mem_filter.mp hfm).1
        have hlt : p < vs.length := by
          rw [len]
          exact (List.getElem?_eq_some_iff.mp hp).1
        have hv : vs[p]? = some vs[p] := List.getElem?_eq_getElem hlt
        obtain ⟨-, -, hne⟩ := attrs p f vs[p] o t hp hv hk u hu hn
        obtain ⟨s, hs⟩ := Option.ne_none_iff_exists'.mp (hne hreq)
        refine ⟨(f.name.expanded, s), List.mem_filterMap.mpr ⟨(f, vs[p]), ?_, ?_⟩, hn.symm⟩
        · rw [List.mem_iff_getElem?]
          exact ⟨p, by rw [List.getElem?_zip_eq_some]; exact ⟨hp, hv⟩⟩
        · simp [hk, hs]
    · rw [h3]
      obtain ⟨es, cs, hc, he, hcs⟩ := hlast i
      have e1 : (S i).content.filter (fun p => !isChoice p) = es := by
        rw [hc, List.filter_append, List.filter_eq_self.mpr (by simpa using he), List.filter_eq_nil_iff.mpr (by simpa using hcs), List.append_nil]
      have e2 : (S i).content.filter isChoice = cs := by
        rw [hc, List.filter_append, List.filter_eq_self.mpr hcs, List.filter_eq_nil_iff.mpr (by simpa using he), List.nil_append]
      rw [e1] at hl1
      rw [e2] at hl2
      rw [hc]
      exact lang_append hl1 hl2
    · intro c hcm d hd hn
      obtain ⟨d', h5, h6, h7⟩ := h4 c hcm
      have : d' = d := nodup_name (hX.names i) h5 hd (by rw [h6, hn])
      subst this
      exact h7

end SX
