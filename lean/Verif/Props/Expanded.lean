import Verif.Spec.Expanded
import Verif.Spec.Names
import Verif.Props.RoundTrip

namespace SX
open Spec

/-! ## C43 -/

/-- **C43.** The expanded name that the crate gives to a tag is the one of "Namespaces in XML", whatever mappings are in force;
in particular for the prefix `xml`, whether or not xml-rs reports its namespace. -/
theorem C43_tag (scopes : List (SMap String)) (n : WName) (q : QName) (e : EName)
    (h : TagReported scopes n q) (hr : resolveElem scopes n = some e) : q.expanded = e := by
  obtain ⟨h1, h2, h3⟩ := h
  unfold resolveElem at hr
  cases hn : n.pfx with
  | none =>
    rw [hn] at hr h3 h2
    simp only [Option.some.injEq] at hr
    subst hr
    simp only [PrefixReported, Option.getD_none, show ¬ ("" : String) = "xml" by simp, if_false] at h3
    unfold QName.expanded
    rw [h1, h2, h3]
    cases hl : lookupPrefix scopes "" with
    | none => simp
    | some u =>
      by_cases hu : u = ""
      · simp [Option.filter, hu]
      · simp [Option.filter, hu]
  | some p =>
    rw [hn] at hr h3 h2
    simp only [PrefixReported, Option.getD_some] at h3
    by_cases hx : p = "xml"
    · subst hx
      simp only [if_true, Option.some.injEq] at hr h3
      subst hr
      unfold QName.expanded
      rw [h1, h2]
      rcases h3 with h3 | h3 <;> rw [h3] <;> simp [xmlNs]
    · simp only [hx, if_false] at hr h3
      cases hl : lookupPrefix scopes p with
      | none => rw [hl] at hr; simp at hr
      | some u =>
        rw [hl] at hr h3
        simp only [Option.map_some, Option.some.injEq] at hr
        subst hr
        unfold QName.expanded
        rw [h1, h2, h3]
        by_cases hu : u = ""
        · simp [Option.filter, hu, hx]
        · simp [Option.filter, hu]

/-- **C43, attributes.** Likewise; without a prefix they are in no namespace, even under a default namespace. -/
theorem C43_attribute (scopes : List (SMap String)) (n : WName) (q : QName) (e : EName)
    (h : AttrReported scopes n q) (hr : resolveAttr scopes n = some e) : q.expanded = e := by
  cases hn : n.pfx with
  | none =>
    obtain ⟨h1, h2, h3⟩ := h
    unfold resolveAttr at hr
    rw [hn] at hr h3 h2
    simp only [Option.some.injEq] at hr
    subst hr
    unfold QName.expanded
    simp only at h3
    rw [h1, h2, h3]
    simp
  | some p =>
    refine C43_tag scopes n q e ⟨h.1, h.2.1, ?_⟩ ?_
    · have := h.2.2
      rw [hn] at this
      rw [hn]
      exact this
    · unfold resolveElem
      unfold resolveAttr at hr
      rw [hn] at hr ⊢
      exact hr

/-- **C43, matching.** A name declared for a field, variant or type matches exactly the tags with its local name whose namespace,
by the rules, is the one it declares (none, if it declares none). -/
theorem C43_match (d : DName) (scopes : List (SMap String)) (n : WName) (q : QName) (e : EName)
    (h : TagReported scopes n q) (hr : resolveElem scopes n = some e) :
    q.expanded = d.expanded ↔ n.loc = d.loc ∧ e.ns = (match d.ns with | some u => u | none => "") := by
  rw [C43_tag scopes n q e h hr]
  have hl : e.loc = n.loc := by
    unfold resolveElem at hr
    revert hr
    cases n.pfx with
    | none => intro hr; simp only [Option.some.injEq] at hr; rw [← hr]
    | some p =>
      intro hr
      by_cases hx : p = "xml"
      · simp only [hx, if_true, Option.some.injEq] at hr; rw [← hr]
      · simp only [hx, if_false] at hr
        cases hl : lookupPrefix scopes p with
        | none => rw [hl] at hr; simp at hr
        | some u => rw [hl] at hr; simp only [Option.map_some, Option.some.injEq] at hr; rw [← hr]
  obtain ⟨ens, eloc⟩ := e
  obtain ⟨dns, dloc⟩ := d
  simp only at hl
  subst hl
  unfold DName.expanded
  cases dns <;> simp [and_comm]

/-- **C43, the namespace of `xml`** is the one of the recommendation, and `xml:` names resolve to it under any mappings. -/
theorem C43_xml (scopes : List (SMap String)) (loc : String) :
    resolveElem scopes { pfx := some "xml", loc := loc } = some { ns := "http://www.w3.org/XML/1998/namespace", loc := loc } ∧
    resolveAttr scopes { pfx := some "xml", loc := loc } = some { ns := "http://www.w3.org/XML/1998/namespace", loc := loc } := by
  constructor <;> rfl

theorem attrs_reported {scopes : List (SMap String)} {as : List (WName × String)} {attrs : List XAttr} (h : AttrsReported scopes as attrs) :
    ∀ es, sequence (as.map fun a => (resolveAttr scopes a.1).map fun n => (n, a.2)) = some es →
      attrs.map (fun a => (a.name.expanded, a.value)) = es := by
  induction h with
  | nil => intro es h; simpa [sequence] using h
  | @cons a x as attrs hax _ ih =>
    intro es h
    simp only [List.map_cons, sequence] at h
    split at h
    · rename_i n r h1 h2
      cases h
      cases hr : resolveAttr scopes a.1 with
      | none => rw [hr] at h1; simp at h1
      | some e =>
        rw [hr] at h1
        simp only [Option.map_some, Option.some.injEq] at h1
        rw [List.map_cons, C43_attribute scopes a.1 x.name e hax.1 hr, hax.2, ← h1, ih _ h2]
    · cases h

theorem content_reported {scopes : List (SMap String)} {es rest : List WEvent} {F : Forest} (h : ContentReported scopes es F rest) :
    ∀ ee, resolveEvents es scopes = some ee →
      ∃ f ee', ee = f.events ++ .stop :: ee' ∧ resolveEvents rest scopes.tail = some ee' ∧ Denotes f F := by
  induction h with
  | @stop scopes l =>
    intro ee h
    simp only [resolveEvents] at h
    obtain ⟨x, hx, rfl⟩ := Option.map_eq_some_iff.mp h
    exact ⟨.nil, x, rfl, hx, .nil⟩
  | @elem scopes n as m l l1 l2 q attrs ns pos endPos c rest hn ha hc hr ihc ihr =>
    intro ee h
    simp only [resolveEvents] at h
    split at h
    · rename_i e ea el h1 h2 h3
      cases h
      obtain ⟨f, e1, rfl, h5, h6⟩ := ihc _ h3
      obtain ⟨g, e2, rfl, h8, h9⟩ := ihr _ h5
      exact ⟨.elem e ea f g, e2, by simp [EForest.events], h8, .elem (C43_tag _ n q e hn h1) (attrs_reported ha _ h2) h6 h9⟩
    · cases h
  | @chars scopes s l l1 cdata pos rest hs hr ih =>
    intro ee h
    simp only [resolveEvents] at h
    obtain ⟨x, hx, rfl⟩ := Option.map_eq_some_iff.mp h
    obtain ⟨f, e1, rfl, h5, h6⟩ := ih _ hx
    exact ⟨.chars s f, e1, by simp [EForest.events], h5, .chars hs h6⟩
  | @blank scopes s l l1 rest hs hr ih =>
    intro ee h
    simp only [resolveEvents] at h
    obtain ⟨x, hx, rfl⟩ := Option.map_eq_some_iff.mp h
    obtain ⟨f, e1, rfl, h5, h6⟩ := ih _ hx
    exact ⟨.chars s f, e1, by simp [EForest.events], h5, .blank hs h6⟩
  | @misc scopes l l1 m pos F _ ih =>
    intro ee h
    obtain ⟨f, e1, h4, h5, h6⟩ := ih _ h
    exact ⟨f, e1, h4, h5, .misc h6⟩

/-- **C43, documents.** A document that xml-rs transports (tags by prefix, with the mappings in force) reads, in the crate's eyes, as
the written one with the names resolved by the rules (`ReadsBack`, the assumption of C35 and C36), if it can be resolved. -/
theorem C43_document (out : List WEvent) (d : Doc) (h : Transported out d) (hr : (resolveEvents out []).isSome) : ReadsBack out d := by
  obtain ⟨n, as, m, l, rfl, hn, ha, hc⟩ := h
  obtain ⟨ee, hee⟩ := Option.isSome_iff_exists.mp hr
  have h := hee
  simp only [resolveEvents] at h
  split at h
  · rename_i e ea el h1 h2 h3
    cases h
    obtain ⟨f, e1, rfl, h5, h6⟩ := content_reported hc _ h3
    simp only [resolveEvents, Option.some.injEq] at h5
    subst h5
    exact ⟨e, ea, f, hee, C43_tag _ n _ e hn h1, attrs_reported ha _ h2, h6⟩
  · cases h

theorem prefix_reportable (scopes : List (SMap String)) (p : String) : ∃ ns, PrefixReported scopes p ns := by
  unfold PrefixReported
  by_cases h : p = "xml"
  · exact ⟨none, by simp [h]⟩
  · exact ⟨_, by rw [if_neg h]⟩

theorem tag_reportable (scopes : List (SMap String)) (n : WName) : ∃ q, TagReported scopes n q := by
  obtain ⟨ns, h⟩ := prefix_reportable scopes (n.pfx.getD "")
  exact ⟨{ loc := n.loc, ns, pfx := n.pfx }, rfl, rfl, h⟩

theorem attrs_reportable (scopes : List (SMap String)) : ∀ as : List (WName × String), ∃ attrs, AttrsReported scopes as attrs
  | [] => ⟨[], .nil⟩
  | (n, v) :: as => by
    obtain ⟨l, hl⟩ := attrs_reportable scopes as
    have : ∃ q, AttrReported scopes n q := by
      unfold AttrReported
      cases hn : n.pfx with
      | none => exact ⟨{ loc := n.loc, ns := none, pfx := none }, rfl, rfl, rfl⟩
      | some p =>
        obtain ⟨ns, h⟩ := prefix_reportable scopes p
        exact ⟨{ loc := n.loc, ns, pfx := some p }, rfl, rfl, h⟩
    obtain ⟨q, hq⟩ := this
    exact ⟨{ name := q, value := v } :: l, .cons ⟨hq, rfl⟩ hl⟩

theorem content_reportable : ∀ (f : EForest) (scopes : List (SMap String)) (es : List WEvent) (ee : List EEvent),
    resolveEvents es scopes = some (f.events ++ .stop :: ee) →
    ∃ F rest, ContentReported scopes es F rest ∧ resolveEvents rest scopes.tail = some ee
  | .nil, scopes, es, ee, h => by
    simp only [EForest.events, List.nil_append] at h
    match es with
    | [] => simp [resolveEvents] at h
    | .start _ _ _ :: _ => simp only [resolveEvents] at h; split at h <;> simp at h
    | .chars _ :: _ => simp [resolveEvents] at h
    | .stop :: l =>
      simp only [resolveEvents] at h
      obtain ⟨x, hx, h2⟩ := Option.map_eq_some_iff.mp h
      cases h2
      exact ⟨.nil, l, .stop, hx⟩
  | .chars s f, scopes, es, ee, h => by
    simp only [EForest.events, List.cons_append] at h
    match es with
    | [] => simp [resolveEvents] at h
    | .start _ _ _ :: _ => simp only [resolveEvents] at h; split at h <;> simp at h
    | .stop :: _ => simp [resolveEvents] at h
    | .chars s' :: l =>
      simp only [resolveEvents] at h
      obtain ⟨x, hx, h2⟩ := Option.map_eq_some_iff.mp h
      simp only [List.cons.injEq, EEvent.chars.injEq] at h2
      obtain ⟨rfl, rfl⟩ := h2
      obtain ⟨F, rest, h3, h4⟩ := content_reportable f scopes l ee hx
      by_cases hb : Blank s'
      · exact ⟨F, rest, .blank hb h3, h4⟩
      · exact ⟨.chars s' false ⟨0, 0⟩ F, rest, .chars hb h3, h4⟩
  | .elem n as c f, scopes, es, ee, h => by
    simp only [EForest.events, List.cons_append, List.append_assoc] at h
    match es with
    | [] => simp [resolveEvents] at h
    | .chars _ :: _ => simp [resolveEvents] at h
    | .stop :: _ => simp [resolveEvents] at h
    | .start q as' m :: l =>
      simp only [resolveEvents] at h
      split at h
      · rename_i e ea el h1 h2 h3
        simp only [Option.some.injEq, List.cons.injEq, EEvent.start.injEq] at h
        obtain ⟨⟨rfl, rfl⟩, rfl⟩ := h
        obtain ⟨F, rest, h4, h5⟩ := content_reportable c (m :: scopes) l _ h3
        obtain ⟨G, rest', h6, h7⟩ := content_reportable f scopes rest ee h5
        obtain ⟨q', hq⟩ := tag_reportable (m :: scopes) q
        obtain ⟨as'', ha⟩ := attrs_reportable (m :: scopes) as'
        exact ⟨.elem q' as'' [] ⟨0, 0⟩ F ⟨0, 0⟩ G, rest', .elem hq ha h4 h6, h7⟩
      · cases h

/-- The contract can be met: there is a document that xml-rs may report for whatever was written, if it can be resolved. -/
theorem C43_transportable {name : EName} {as : List (EName × String)} {g : EForest} {out : List WEvent}
    (h : resolveEvents out [] = some (.start name as :: (g.events ++ [.stop]))) : ∃ d, Transported out d := by
  match out with
  | [] => simp [resolveEvents] at h
  | .chars _ :: _ => simp [resolveEvents] at h
  | .stop :: _ => simp [resolveEvents] at h
  | .start q as' m :: l =>
    simp only [resolveEvents] at h
    split at h
    · rename_i e ea el h1 h2 h3
      simp only [Option.some.injEq, List.cons.injEq, EEvent.start.injEq] at h
      obtain ⟨-, rfl⟩ := h
      obtain ⟨F, rest, h4, h5⟩ := content_reportable g [m] l [] h3
      have hrest : rest = [] := by
        match rest, h5 with
        | [], _ => rfl
        | .chars _ :: _, h5 => simp [resolveEvents] at h5
        | .stop :: _, h5 => simp [resolveEvents] at h5
        | .start _ _ _ :: _, h5 => simp only [resolveEvents] at h5; split at h5 <;> simp at h5
      subst hrest
      obtain ⟨q', hq⟩ := tag_reportable [m] q
      obtain ⟨as'', ha⟩ := attrs_reportable [m] as'
      exact ⟨{ startPos := ⟨0, 0⟩, prolog := [], epilog := [], eofPos := ⟨0, 0⟩, epilogOk := by simp
               root := { name := q', attrs := as'', ns := [], pos := ⟨0, 0⟩, children := F, endPos := ⟨0, 0⟩ } },
        q, as', m, l, rfl, hq, ha, h4⟩
    · cases h

/-- **C35 from xml-rs's contract.** Serializing a readable value succeeds, xml-rs can transport what was written, and whatever document
it then reports is read as that very value. -/
theorem C35_transported_partial (dbg dbg' : Bool) (env : Env) (henv : NamesDeclared env) (hok : EnvOk env) (hfl : FlattenOk env)
    (name : EName) (ty : Ty) (hn : ElemNsOk (urls (declaredNs env ty)) name) (v : Val) (hv : HasTy env ty v)
    (hpf : RootPlainFree env name ty v) (hr : Readable env ty v) :
    ∃ s, serializeVal dbg (fun _ _ => none) env name ty v = .ok (s, .ok ()) ∧ (∃ d, Transported s.out d) ∧
      ∀ d, Transported s.out d → readTy dbg' env ty d.input = .ok (.ok v) := by
  obtain ⟨s, h1, -, h3⟩ := C35_roundtrip_partial dbg dbg' env henv hok hfl name ty hn v hv hpf hr
  obtain ⟨as, g, h⟩ := represents_exists hv name
  obtain ⟨s', r, h1', h2, -⟩ := C32_document_partial dbg (fun _ _ => none) env henv (envOk_distinct hok) name ty hn v as g h hpf
  rw [h1] at h1'
  cases h1'
  have h4 := h2 rfl
  exact ⟨s, h1, C43_transportable h4, fun d hd => h3 d (C43_document _ d hd (by rw [h4]; rfl))⟩

/-- `<p:a>` inside `xmlns:p="u"`, and `xml:lang` as xml-rs reports it, meet the hypotheses. -/
example : TagReported [[("p", "u")]] { pfx := some "p", loc := "a" } { loc := "a", ns := some "u", pfx := some "p" } ∧
    resolveElem [[("p", "u")]] { pfx := some "p", loc := "a" } = some { ns := "u", loc := "a" } := by
  refine ⟨⟨rfl, rfl, ?_⟩, rfl⟩
  simp [PrefixReported, lookupPrefix, SMap.get, Option.filter]

example : AttrReported [] { pfx := some "xml", loc := "lang" } { loc := "lang", ns := none, pfx := some "xml" } :=
  ⟨rfl, rfl, .inl rfl⟩

example := C43_match ⟨some "u", "a"⟩ [[("p", "u")]] { pfx := some "p", loc := "a" } { loc := "a", ns := some "u", pfx := some "p" } _
  (by simp [TagReported, PrefixReported, lookupPrefix, SMap.get, Option.filter]) rfl

end SX
