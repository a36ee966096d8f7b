import Verif.Proof.DeriveSer

namespace SX
open Spec

/-! ### Success when every write succeeds -/

theorem write_accepted {s : WState} {sink : Sink} {e : WEvent} {a : Option (EName × List (EName × String))}
    (hp : s.poison = none) (hs : sink s.out e = none) :
    (s.write sink e a).1.poison = none ∧ (s.write sink e a).2 = .ok () := by
  unfold WState.write
  simp [hp, hs]

theorem Prog.run_accepted (dbg : Bool) (sink : Sink) (hsink : ∀ out e, sink out e = none) {hs : List Handle} (p : Prog hs)
    (st : HStates hs) (hst : st.Seen) (s s' : WState) (r r0 : Except SErr Unit) (es : List EEvent) (hp : s.poison = none)
    (h : p.run dbg sink st s = .ok (s', r)) (ha : Prog.asks p st.builders = some (es, r0)) :
    r = r0 ∧ s'.poison = none := by
  induction p generalizing s es with
  | ret r' =>
    simp only [Prog.run, Except.ok.injEq, Prod.mk.injEq] at h
    obtain ⟨rfl, rfl⟩ := h
    simp only [Prog.asks, Option.some.injEq, Prod.mk.injEq] at ha
    exact ⟨ha.2, hp⟩
  | element name k ih =>
    cases st with | cons n rest =>
    exact ih _ (all_builder (b := Builder.new name (Namespaces.child n name.ns)) rfl hst) _ _ hp h ha
  | text t k ih =>
    simp only [Prog.run] at h
    obtain ⟨w1, w2⟩ := write_accepted (a := none) hp (hsink s.out (.chars t))
    rw [w2] at h
    simp only [Prog.asks, Option.map_eq_some_iff, Prod.mk.injEq] at ha
    obtain ⟨⟨es', r'⟩, h1, -, rfl⟩ := ha
    exact ih _ _ hst _ _ w1 h h1
  | «namespace» p u k ih =>
    cases st with | cons b rest =>
    simp only [Prog.run] at h
    split at h
    · simp at h
    · rename_i b' hb
      obtain ⟨g1, g2, g3⟩ := namespace_asks hst.1 hb
      refine ih _ (all_builder (b := b') g1 hst.2) _ es hp h ?_
      simp only [Prog.asks, HStates.builders] at ha ⊢
      rw [← ha, g2, g3]
  | «attribute» n v k ih =>
    cases st with | cons b rest =>
    simp only [Prog.run] at h
    obtain ⟨b', hb, g1, g2, g3, -⟩ := attribute_asks (b := b) hst.1 n v
    rw [hb] at h
    simp only at h
    refine ih _ _ (all_builder (b := b') g1 hst.2) _ es hp h ?_
    simp only [Prog.asks, HStates.builders] at ha ⊢
    rw [← ha, g2, g3]
  | start ok fail ih1 ih2 =>
    cases st with | cons b rest =>
    simp only [Prog.run] at h
    split at h
    · simp at h
    · rename_i s1 n hs
      obtain ⟨n', q, as, h1, h2, h3, rfl, h4⟩ := start_cases hs
      obtain ⟨w1, w2⟩ := write_accepted (a := some (Builder.name b, Builder.attrs b)) hp (hsink s.out (.start q as n'.byPrefix))
      simp only [HStates.builders, Prog.asks, Option.map_eq_some_iff, Prod.mk.injEq] at ha
      obtain ⟨⟨es', r'⟩, k1, -, rfl⟩ := ha
      exact ih1 _ (all_writer trivial hst.2) _ _ w1 h k1
    · rename_i s1 e hs
      exfalso
      obtain ⟨n', q, as, h1, h2, h3, rfl, h4⟩ := start_cases hs
      obtain ⟨w1, w2⟩ := write_accepted (a := some (Builder.name b, Builder.attrs b)) hp (hsink s.out (.start q as n'.byPrefix))
      rcases h4 with ⟨-, h4⟩ | ⟨e', h4, -⟩
      · simp at h4
      · rw [w2] at h4; simp at h4
  | finish k ih =>
    cases st with | cons b rest =>
    simp only [Prog.run] at h
    obtain ⟨w1, w2⟩ := write_accepted (a := none) hp (hsink s.out .stop)
    rw [w2] at h
    simp only [HStates.builders, Prog.asks, Option.map_eq_some_iff, Prod.mk.injEq] at ha
    obtain ⟨⟨es', r'⟩, h1, -, rfl⟩ := ha
    exact ih _ _ hst.2 _ _ w1 h h1
  | dropBuilder k ih => cases st with | cons b rest => simp [Prog.asks, HStates.builders] at ha
  | dropWriter k ih => cases st with | cons b rest => simp [Prog.asks, HStates.builders] at ha
  | forgetBuilder k ih =>
    cases st with | cons b rest =>
    exact ih _ hst.2 _ _ hp h ha
  | forgetWriter k ih =>
    cases st with | cons b rest =>
    exact ih _ hst.2 _ _ hp h ha

/-- If no write fails, a document asked for in full is written in full. -/
theorem serializeTo_accepted {dbg : Bool} {sink : Sink} {name : EName} {attrs : AttrProg} {children : Prog [.writer false]}
    {s : WState} {r : Except SErr Unit} {es : List EEvent} (hsink : ∀ out e, sink out e = none)
    (h : serializeTo dbg sink name attrs children = .ok (s, r)) (ha : documentAsked name attrs children = some es) : r = .ok () := by
  unfold documentAsked at ha
  split at ha
  · simp at ha
  · rename_i l hl
    split at ha
    · rename_i es' hes
      unfold serializeTo at h
      simp only at h
      split at h
      · simp at h
      · rename_i b e hb
        obtain ⟨-, -, g3⟩ := AttrProg.run_asks dbg attrs (Builder.new name []) _ rfl _ hb
        simp only [Builder.new, hl, okSome] at g3
        simp at g3
      · rename_i b hb
        split at h
        · simp at h
        · rename_i s1 e hs
          obtain ⟨n', q, as, h1, h2, h3, rfl, h4⟩ := start_cases hs
          obtain ⟨w1, w2⟩ := write_accepted (s := { out := [], poison := none, steps := [] }) (a := some (Builder.name b, Builder.attrs b))
            rfl (hsink _ (.start q as n'.byPrefix))
          rcases h4 with ⟨-, h4⟩ | ⟨e', h4, -⟩
          · simp at h4
          · rw [w2] at h4; simp at h4
        · rename_i s1 n hs
          obtain ⟨n', q, as, h1, h2, h3, rfl, h4⟩ := start_cases hs
          obtain ⟨w1, w2⟩ := write_accepted (s := { out := [], poison := none, steps := [] }) (a := some (Builder.name b, Builder.attrs b))
            rfl (hsink _ (.start q as n'.byPrefix))
          split at h
          · simp at h
          · rename_i s2 e hr
            have := (Prog.run_accepted dbg sink hsink children _ (all_writer trivial all_nil) _ _ _ _ _ w1 hr hes).1
            simp at this
          · rename_i s2 hr
            have := (Prog.run_accepted dbg sink hsink children _ (all_writer trivial all_nil) _ _ _ _ _ w1 hr hes).2
            simp only [Except.ok.injEq] at h
            have w := (write_accepted (a := none) this (hsink s2.out .stop)).2
            rw [h] at w
            exact w
    · simp at ha

/-! ### No writer is leaked -/

theorem noForget_embed {hs : List Handle} (a : AttrProg) (k : Except SErr Unit → Prog (.builder :: hs))
    (hk : ∀ r, NoForget (k r)) : NoForget (a.embed k) := by
  induction a with
  | ret r => exact hk r
  | «namespace» p u k ih => exact ih
  | «attribute» n v k ih => exact fun r => ih r

theorem noForget_items (env : Env) {l : List Item} {f : EForest}
    (h : Shows env l f) : ∀ {o : Bool} {hs : List Handle} (k : WCont o hs), (∀ r, NoForget (k r)) →
      NoForget (runItems env l k) := by
  have next : ∀ {o : Bool} {hs : List Handle} (k : WCont o hs) (p : Prog (.writer o :: hs)), (∀ r, NoForget (k r)) →
      NoForget p → ∀ r, NoForget (k.next p r) := by
    intro o hs k p hk hp r
    cases r with
    | error e => exact hk _
    | ok u => exact hp
  have elem : ∀ {o : Bool} {hs : List Handle} (name : EName) (ty : Ty) (v : Val) (k : WCont o hs), (∀ r, NoForget (k r)) →
      (∀ k : WCont true (.writer o :: hs), (∀ r, NoForget (k r)) → NoForget (writeChildren env ty v k)) →
      NoForget (writeElem name (writeAttributes env ty v) (fun k => writeChildren env ty v k) k) := by
    intro o hs name ty v k hk hc
    refine noForget_embed _ _ ?_
    intro r
    cases r with
    | error e => exact hk _
    | ok u =>
      refine ⟨hc _ ?_, fun e => hk _⟩
      intro r
      cases r with
      | error e => exact hk _
      | ok u => exact hk
  induction h with
  | nil => intro o hs k hk; exact hk _
  | unit rest ih =>
    intro o hs k hk
    have := next k _ hk (ih k hk)
    exact ⟨this, fun e => this _⟩
  | @text n t tv s l f h rest ih =>
    intro o hs k hk
    refine elem n _ _ _ (next k _ hk (ih k hk)) ?_
    intro k hk
    rw [writeChildren.eq_def]
    simp only [h]
    exact hk
  | strct children rest ihc ih =>
    intro o hs k hk
    refine elem _ _ _ _ (next k _ hk (ih k hk)) ?_
    intro k hk
    rw [writeStruct_items]
    exact ihc k hk
  | enm children rest ihc ih =>
    intro o hs k hk
    refine elem _ _ _ _ (next k _ hk (ih k hk)) ?_
    intro k hk
    rw [writeVariant_items]
    exact ihc k hk

theorem noForget_children (env : Env) {name : EName} {ty : Ty} {v : Val}
    {as : List (EName × String)} {g : EForest} (h : Represents env name ty v as g) : NoForget (writeChildren env ty v .ret) := by
  cases h with
  | text h r => rw [writeChildren.eq_def]; simp only [h]; exact fun _ => trivial
  | strct h r => rw [writeStruct_items]; exact noForget_items env h _ fun _ => trivial
  | enm h r => rw [writeVariant_items]; exact noForget_items env h _ fun _ => trivial

/-! ### Namespaces are declared before use -/

theorem declared_andThen (a b : AttrProg) (sc : HScope) (K : HScope → Prop)
    (h : AttrProg.Declared a sc fun sc' => AttrProg.Declared b sc' K) : AttrProg.Declared (a.andThen b) sc K := by
  induction a generalizing sc with
  | ret r =>
    cases r with
    | error e => trivial
    | ok u => exact h
  | «namespace» p u k ih =>
    cases sc with
    | writer m _ => exact absurd h (by simp [AttrProg.Declared])
    | builder n i r d => exact ⟨h.1, ih _ h.2⟩
  | «attribute» n v k ih =>
    cases sc with
    | writer m _ => exact absurd h (by simp [AttrProg.Declared])
    | builder n i r d => exact ⟨h.1, fun res => ih _ _ (h.2 res)⟩

theorem declared_namespaces (l : List (String × String)) (hl : ∀ x ∈ l, MayDeclare x.1 x.2) (n : EName) (i r : List String) (d : Bool)
    (K : HScope → Prop) (h : ∀ r', (∀ u, u ∈ r ∨ u ∈ urls l → u ∈ r') → K (.builder n i r' (d || l.any fun x => x.1 == ""))) :
    AttrProg.Declared (writeNamespaces l) (.builder n i r d) K := by
  induction l generalizing r d with
  | nil => have := h r (by simp [urls]); rw [List.any_nil, Bool.or_false] at this; exact this
  | cons x l ih =>
    refine ⟨hl x (by simp), ih (fun y hy => hl y (by simp [hy])) _ _ ?_⟩
    intro r' hr'
    have := h r' ?_
    · rw [List.any_cons] at this
      rw [Bool.or_assoc]
      exact this
    intro u hu
    apply hr'
    simp only [urls, List.map_cons, List.mem_cons] at hu ⊢
    rcases hu with hu | hu | hu
    · exact .inl (.inr hu)
    · exact .inl (.inl hu)
    · exact .inr hu

theorem declared_attr (o : Bool) (t : TextTy) (a : EName) (v : Val) (n : EName) (i r : List String) (d : Bool) (K : HScope → Prop)
    (ha : a.ns = "" ∨ a.ns = xmlNs ∨ a.ns ∈ r) (h : K (.builder n i r d)) :
    AttrProg.Declared (writeAttr o t a v) (.builder n i r d) K := by
  have key : ∀ tv, AttrProg.Declared (match t.toText tv with
      | some s => .attribute a s fun r => .ret r
      | none => .ret (.ok ())) (.builder n i r d) K := by
    intro tv
    split
    · refine ⟨?_, ?_⟩
      · rcases ha with ha | ha | ha
        · exact .inl ha
        · exact .inr (.inl ha)
        · exact .inr (.inr (.inr ha))
      · intro res
        cases res with
        | error e => trivial
        | ok u => exact h
    · exact h
  unfold writeAttr
  simp only
  split
  · exact key _
  · exact key _
  · exact h

theorem declared_attrFields (fs : List Field) (vs : List Val) (n : EName) (i r : List String) (d : Bool) (K : HScope → Prop)
    (hf : ∀ f o t, f ∈ fs → f.kind = .attribute o t →
      f.name.expanded.ns = "" ∨ f.name.expanded.ns = xmlNs ∨ f.name.expanded.ns ∈ r) (h : K (.builder n i r d)) :
    AttrProg.Declared (writeAttrFields fs vs) (.builder n i r d) K := by
  induction fs generalizing vs with
  | nil => cases vs <;> exact h
  | cons f fs ih =>
    cases vs with
    | nil => exact h
    | cons v vs =>
      have := ih vs fun g o t hg hk => hf g o t (by simp [hg]) hk
      simp only [writeAttrFields]
      split
      · rename_i o t hk
        exact declared_andThen _ _ _ _ (declared_attr _ _ _ _ _ _ _ _ _ (hf f o t (by simp) hk) this)
      · exact this

/-- Is a default namespace declared for a flattened field? -/
def flattenDefault (env : Env) (f : Field) : Bool :=
  match f.kind with
  | .flatten e => (env.enm e).namespaces.any fun x => x.1 == ""
  | _ => false

theorem declared_flattenAttrs (env : Env) (henv : NamesDeclared env) (fs : List Field) (n : EName) (i r : List String) (d : Bool)
    (K : HScope → Prop) (h : ∀ r', (∀ u, (u ∈ r ∨ ∃ f e, f ∈ fs ∧ f.kind = .flatten e ∧ u ∈ urls (env.enm e).namespaces) → u ∈ r') →
      K (.builder n i r' (d || fs.any (flattenDefault env)))) :
    AttrProg.Declared (writeFlattenAttrs env fs) (.builder n i r d) K := by
  induction fs generalizing r d with
  | nil => have := h r (by simp); rw [List.any_nil, Bool.or_false] at this; exact this
  | cons f fs ih =>
    simp only [writeFlattenAttrs]
    split
    · rename_i e hk
      refine declared_andThen _ _ _ _ (declared_namespaces _ (henv.mappings (.enm e)) _ _ _ _ _ ?_)
      intro r1 h1
      apply ih
      intro r2 h2
      have := h r2 ?_
      · rw [List.any_cons] at this
        simp only [flattenDefault, hk] at this
        rw [Bool.or_assoc]
        exact this
      intro u hu
      apply h2
      rcases hu with hu | ⟨g, e', hg, hk', hu⟩
      · exact .inl (h1 u (.inl hu))
      · simp only [List.mem_cons] at hg
        rcases hg with rfl | hg
        · rw [hk] at hk'
          cases hk'
          exact .inl (h1 u (.inr hu))
        · exact .inr ⟨g, e', hg, hk', hu⟩
    · rename_i hk
      apply ih
      intro r' hr'
      have := h r' ?_
      · have hfalse : flattenDefault env f = false := by
          unfold flattenDefault
          split
          · rename_i e he; exact absurd he (hk e)
          · rfl
        rw [List.any_cons, hfalse, Bool.false_or] at this
        exact this
      intro u hu
      apply hr'
      rcases hu with hu | ⟨g, e', hg, hk', hu⟩
      · exact .inl hu
      · simp only [List.mem_cons] at hg
        rcases hg with rfl | hg
        · exact absurd hk' (hk e')
        · exact .inr ⟨g, e', hg, hk', hu⟩

theorem asksDefault_strct (env : Env) (s : Nat) : asksDefault env (.strct s) =
    (((env.strct s).namespaces.any fun x => x.1 == "") || (env.strct s).fields.any (flattenDefault env)) := rfl

theorem declared_struct (env : Env) (henv : NamesDeclared env) (s : Nat) (vs : List Val) (n : EName) (i r : List String) (d : Bool)
    (K : HScope → Prop)
    (h : ∀ r', (∀ u, (u ∈ r ∨ u ∈ urls (env.strct s).namespaces ∨
        ∃ f e, f ∈ (env.strct s).fields ∧ f.kind = .flatten e ∧ u ∈ urls (env.enm e).namespaces) → u ∈ r') →
      K (.builder n i r' (d || asksDefault env (.strct s)))) :
    AttrProg.Declared (writeAttributes env (.strct s) (.strct vs)) (.builder n i r d) K := by
  simp only [writeAttributes]
  refine declared_andThen _ _ _ _ (declared_namespaces _ (henv.mappings (.strct s)) _ _ _ _ _ ?_)
  intro r1 h1
  refine declared_andThen _ _ _ _ (declared_attrFields _ _ _ _ _ _ _ ?_ (declared_flattenAttrs env henv _ _ _ _ _ _ ?_))
  · intro f o t hf hk
    rcases henv.attrs s f o t hf hk with h | h | h
    · exact .inl h
    · exact .inr (.inl h)
    · exact .inr (.inr (h1 _ (.inr h)))
  · intro r2 h2
    have := h r2 ?_
    · rw [asksDefault_strct] at this
      rw [Bool.or_assoc]
      exact this
    intro u hu
    apply h2
    rcases hu with hu | hu | hu
    · exact .inl (h1 u (.inl hu))
    · exact .inl (h1 u (.inr hu))
    · exact .inr hu

theorem declared_embed {hs : List Handle} (a : AttrProg) (k : Except SErr Unit → Prog (.builder :: hs)) (n : EName)
    (i r : List String) (d : Bool) (st : List HScope) (he : ∀ e sc, Prog.Declared (k (.error e)) (sc :: st))
    (ha : AttrProg.Declared a (.builder n i r d) fun sc => Prog.Declared (k (.ok ())) (sc :: st)) :
    Prog.Declared (a.embed k) (.builder n i r d :: st) := by
  induction a generalizing r d with
  | ret res =>
    cases res with
    | error e => exact he e _
    | ok u => exact ha
  | «namespace» p u k' ih => exact ⟨ha.1, ih _ _ ha.2⟩
  | «attribute» m v k' ih => exact ⟨ha.1, fun res => ih _ _ _ (ha.2 res)⟩

/-- The namespaces of the items' names are among those mapped. -/
def ItemsOk (l : List Item) (sc : List String) : Prop := ∀ it ∈ l, ElemNsOk sc it.name

theorem elemNsOk_mono {us us' : List String} {n : EName} (h : ElemNsOk us n) (hu : ∀ u ∈ us, u ∈ us') : ElemNsOk us' n := by
  rcases h with h | h | h
  · exact .inl h
  · exact .inr (.inl (hu _ h))
  · exact .inr (.inr h)

theorem fieldItems_ok {s : Slot} {n : EName} {v : Val} {sc : List String} (h : ElemNsOk sc n) : ItemsOk (fieldItems s n v) sc := by
  intro it hit
  simp only [fieldItems, List.mem_map] at hit
  obtain ⟨w, _, rfl⟩ := hit
  exact h

theorem variantItems_ok {env : Env} (henv : NamesDeclared env) {e : Nat} {v : Val} {sc : List String}
    (h : ∀ u ∈ urls (env.enm e).namespaces, u ∈ sc) : ItemsOk (variantItems (env.enm e) v) sc := by
  unfold variantItems
  split
  · rename_i j p
    split
    · intro it hit; simp at hit
    · rename_i w hw
      split
      · intro it hit; simp at hit
      · rename_i hskip
        have hok := elemNsOk_mono (henv.variants e w (List.mem_of_getElem? hw) (by simpa using hskip)) h
        split
        · intro it hit
          simp only [List.mem_singleton] at hit
          subst hit
          exact hok
        · exact fieldItems_ok hok
        · intro it hit; simp at hit
  · intro it hit; simp at hit

theorem structItems_ok {env : Env} (henv : NamesDeclared env) {s : Nat} {vs : List Val} {sc : List String}
    (h : ∀ u, (u ∈ urls (env.strct s).namespaces ∨
        ∃ f e, f ∈ (env.strct s).fields ∧ f.kind = .flatten e ∧ u ∈ urls (env.enm e).namespaces) → u ∈ sc) :
    ItemsOk (structItems env (env.strct s).fields vs) sc := by
  intro it hit
  simp only [structItems, List.mem_append, List.mem_flatMap] at hit
  rcases hit with ⟨x, hx, hit⟩ | ⟨x, hx, hit⟩
  all_goals have hf : x.1 ∈ (env.strct s).fields := (List.of_mem_zip hx).1
  · split at hit
    · rename_i sl hk
      exact fieldItems_ok (elemNsOk_mono (henv.elems s x.1 sl hf hk) fun u hu => h u (.inl hu)) it hit
    · simp at hit
  · split at hit
    · rename_i e hk
      exact variantItems_ok henv (fun u hu => h u (.inr ⟨x.1, e, hf, hk, hu⟩)) it hit
    · simp at hit

theorem mayStart_of {us : List String} {n : EName} {d : Bool} (h : ElemNsOk us n) (hd : n.ns = "" → d = false) : MayStart n us d := by
  rcases h with h | h | h
  · exact .inl h
  · exact .inr (.inl h)
  · exact .inr (.inr ⟨h, hd h⟩)

theorem declared_items (env : Env) (henv : NamesDeclared env) {l : List Item} {f : EForest}
    (h : Shows env l f) : ∀ {o : Bool} {hs : List Handle} (k : WCont o hs) (sc : List String) (d : Bool) (st : List HScope),
      ItemsOk l sc → PlainFree env d l → (∀ r, Prog.Declared (k r) (.writer sc d :: st)) →
      Prog.Declared (runItems env l k) (.writer sc d :: st) := by
  have next : ∀ {o : Bool} {hs : List Handle} (k : WCont o hs) (p : Prog (.writer o :: hs)) (scs : List HScope),
      (∀ r, Prog.Declared (k r) scs) → Prog.Declared p scs → ∀ r, Prog.Declared (k.next p r) scs := by
    intro o hs k p scs hk hp r
    cases r with
    | error e => exact hk _
    | ok u => exact hp
  -- starting an element with name `n`, where `n` is known to be fine
  have elem : ∀ {o : Bool} {hs : List Handle} (n : EName) (a : AttrProg) (c : WCont true (.writer o :: hs) → Prog (.writer true :: .writer o :: hs))
      (k : WCont o hs) (sc : List String) (d d' : Bool) (st : List HScope), ElemNsOk sc n → (n.ns = "" → d' = false) →
      (∀ r, Prog.Declared (k r) (.writer sc d :: st)) →
      (∀ i r (K : HScope → Prop), (∀ r', (∀ u ∈ r, u ∈ r') →
          (∀ k : WCont true (.writer o :: hs), (∀ res, Prog.Declared (k res) (.writer r' d' :: .writer sc d :: st)) →
            Prog.Declared (c k) (.writer r' d' :: .writer sc d :: st)) → K (.builder n i r' d')) →
        AttrProg.Declared a (.builder n i r d) K) →
      Prog.Declared (writeElem n a c k) (.writer sc d :: st) := by
    intro o hs n a c k sc d d' st hn hd hk ha
    simp only [writeElem, Prog.Declared]
    refine declared_embed _ _ _ _ _ _ _ (fun e sc' => hk _) ?_
    apply ha
    intro r' hr' hc
    refine ⟨?_, hc _ ?_, fun e => hk _⟩
    · rcases hn with hn | hn | hn
      · exact .inl hn
      · exact .inr (.inl (hr' _ (by simp [hn])))
      · exact .inr (.inr ⟨hn, hd hn⟩)
    · intro res
      cases res with
      | error e => exact hk _
      | ok u => exact hk
  have tail : ∀ {it : Item} {l : List Item} {sc : List String}, ItemsOk (it :: l) sc → ItemsOk l sc :=
    fun h x hx => h x (by simp [hx])
  induction h with
  | nil => intro o hs k sc d st _ _ hk; exact hk _
  | unit rest ih =>
    intro o hs k sc d st hl hpf hk
    cases hpf with | unit hd hrest =>
    have hn := next k _ _ hk (ih k sc d st (tail hl) hrest hk)
    refine ⟨?_, ?_, fun e => hn _⟩
    · rcases hl _ List.mem_cons_self with h | h | h
      · exact .inl h
      · exact .inr (.inl (by simp at h; simp [h]))
      · exact .inr (.inr ⟨h, hd h⟩)
    · intro res
      exact hn res
  | @text n t tv s l f h rest ih =>
    intro o hs k sc d st hl hpf hk
    cases hpf with | text hd hrest =>
    refine elem n _ _ _ sc d d st (hl _ List.mem_cons_self) hd (next k _ _ hk (ih k sc d st (tail hl) hrest hk)) ?_
    intro i r K hK
    refine hK r (fun u hu => hu) ?_
    intro k hk
    rw [writeChildren.eq_def]
    simp only [h]
    exact hk
  | @strct n i vs g l f children rest ihc ih =>
    intro o hs k sc d st hl hpf hk
    cases hpf with | strct hd hch hrest =>
    refine elem n _ _ _ sc d _ st (hl _ List.mem_cons_self) hd (next k _ _ hk (ih k sc d st (tail hl) hrest hk)) ?_
    intro inh r K hK
    refine declared_struct env henv i vs n inh r d K ?_
    intro r' hr'
    refine hK r' (fun u hu => hr' u (.inl hu)) ?_
    intro k hk
    rw [writeStruct_items]
    exact ihc k r' _ _ (structItems_ok henv fun u hu => hr' u (.inr hu)) hch hk
  | @enm n i j p g l f children rest ihc ih =>
    intro o hs k sc d st hl hpf hk
    cases hpf with | enm hd hch hrest =>
    refine elem n _ _ _ sc d _ st (hl _ List.mem_cons_self) hd (next k _ _ hk (ih k sc d st (tail hl) hrest hk)) ?_
    intro inh r K hK
    refine declared_namespaces _ (henv.mappings (.enm i)) n inh r d K ?_
    intro r' hr'
    refine hK r' (fun u hu => hr' u (.inl hu)) ?_
    intro k hk
    rw [writeVariant_items]
    exact ihc k r' _ _ (variantItems_ok henv fun u hu => hr' u (.inr hu)) hch hk

/-! ### Elements in no namespace -/

theorem variantItems_inNs {env : Env} (hn : AllNamed env) {e : Nat} {v : Val} {it : Item} (h : it ∈ variantItems (env.enm e) v) :
    it.name.ns ≠ "" := by
  unfold variantItems at h
  split at h
  · split at h
    · simp at h
    · rename_i w hw
      split at h
      · simp at h
      · rename_i hskip
        have := hn.variants e w (List.mem_of_getElem? hw) (by simpa using hskip)
        split at h
        · simp only [List.mem_singleton] at h
          subst h; exact this
        · simp only [fieldItems, List.mem_map] at h
          obtain ⟨_, _, rfl⟩ := h
          exact this
        · simp at h
  · simp at h

theorem structItems_inNs {env : Env} (hn : AllNamed env) {i : Nat} {vs : List Val} {it : Item}
    (h : it ∈ structItems env (env.strct i).fields vs) : it.name.ns ≠ "" := by
  simp only [structItems, List.mem_append, List.mem_flatMap] at h
  rcases h with ⟨x, hx, h⟩ | ⟨x, hx, h⟩
  all_goals have hf : x.1 ∈ (env.strct i).fields := (List.of_mem_zip hx).1
  · split at h
    · rename_i sl hk
      simp only [fieldItems, List.mem_map] at h
      obtain ⟨_, _, rfl⟩ := h
      exact hn.fields i x.1 sl hf hk
    · simp at h
  · split at h
    · exact variantItems_inNs hn h
    · simp at h

theorem plainFree_of {env : Env} {l : List Item} {f : EForest} (h : Shows env l f) : ∀ (d : Bool),
    (d = false ∧ ∀ ty, asksDefault env ty = false) ∨ (AllNamed env ∧ ∀ it ∈ l, it.name.ns ≠ "") → PlainFree env d l := by
  have one : ∀ {it : Item} {l : List Item} {d : Bool},
      ((d = false ∧ ∀ ty, asksDefault env ty = false) ∨ (AllNamed env ∧ ∀ x ∈ it :: l, x.name.ns ≠ "")) →
      (it.name.ns = "" → d = false) ∧ (∀ ty, it.name.ns = "" → (d || asksDefault env ty) = false) ∧
      ((d = false ∧ ∀ ty, asksDefault env ty = false) ∨ (AllNamed env ∧ ∀ x ∈ l, x.name.ns ≠ "")) := by
    intro it l d h
    rcases h with h | h
    · exact ⟨fun _ => h.1, fun ty _ => by rw [h.1, h.2 ty]; rfl, .inl h⟩
    · exact ⟨fun h' => absurd h' (h.2 it List.mem_cons_self), fun ty h' => absurd h' (h.2 it List.mem_cons_self),
        .inr ⟨h.1, fun x hx => h.2 x (List.mem_cons_of_mem _ hx)⟩⟩
  induction h with
  | nil => intro d _; exact .nil
  | unit rest ih => intro d h; exact .unit (one h).1 (ih d (one h).2.2)
  | text _ rest ih => intro d h; exact .text (one h).1 (ih d (one h).2.2)
  | @strct n i vs g l f c rest ihc ih =>
    intro d h
    refine .strct ((one h).2.1 _) (ihc _ ?_) (ih d (one h).2.2)
    rcases h with h | h
    · exact .inl ⟨by rw [h.1, h.2]; rfl, h.2⟩
    · exact .inr ⟨h.1, fun it hit => structItems_inNs h.1 hit⟩
  | @enm n i j p g l f c rest ihc ih =>
    intro d h
    refine .enm ((one h).2.1 _) (ihc _ ?_) (ih d (one h).2.2)
    rcases h with h | h
    · exact .inl ⟨by rw [h.1, h.2]; rfl, h.2⟩
    · exact .inr ⟨h.1, fun it hit => variantItems_inNs h.1 hit⟩

/-- The condition on types implies the one on values. -/
theorem rootPlainFree_of {env : Env} {name : EName} (hc : NoClash env name) {ty : Ty} {v : Val} (hv : HasTy env ty v) :
    RootPlainFree env name ty v := by
  obtain ⟨as, g, h⟩ := represents_exists hv name
  refine plainFree_of h false (hc.imp (fun h => ⟨rfl, h⟩) fun h => ⟨h.1, ?_⟩)
  intro it hit
  simp only [List.mem_singleton] at hit
  subst hit
  exact h.2

/-- The generated code declares the namespaces it uses. -/
theorem derived_declared (env : Env) (henv : NamesDeclared env) {name : EName} {ty : Ty} {v : Val}
    {as : List (EName × String)} {g : EForest} (h : Represents env name ty v as g)
    (hn : ElemNsOk (urls (declaredNs env ty)) name) (hpf : RootPlainFree env name ty v) :
    DocumentDeclared name (writeAttributes env ty v) (writeChildren env ty v .ret) := by
  unfold DocumentDeclared
  cases h with
  | text h r =>
    cases hpf with | text hd _ =>
    refine ⟨mayStart_of (us := []) (by simpa [declaredNs, urls] using hn) hd, ?_⟩
    rw [writeChildren.eq_def]
    simp only [h]
    exact fun _ => trivial
  | @strct _ i vs _ _ _ h r =>
    cases hpf with | strct hd hch _ =>
    refine declared_struct env henv i vs name [] [] false _ ?_
    intro r' hr'
    refine ⟨mayStart_of (elemNsOk_mono hn fun u hu => hr' u (.inr (.inl hu))) hd, ?_⟩
    rw [writeStruct_items]
    exact declared_items env henv h _ r' _ [] (structItems_ok henv fun u hu => hr' u (.inr hu)) hch fun _ => trivial
  | @enm _ i j p _ _ _ h r =>
    cases hpf with | enm hd hch _ =>
    refine declared_namespaces _ (henv.mappings (.enm i)) name [] [] false _ ?_
    intro r' hr'
    refine ⟨mayStart_of (elemNsOk_mono hn fun u hu => hr' u (.inr hu)) hd, ?_⟩
    rw [writeVariant_items]
    exact declared_items env henv h _ r' _ [] (variantItems_ok henv fun u hu => hr' u (.inr hu)) hch fun _ => trivial

end SX
