import Verif.Proof.CostCopied
import Verif.Proof.DeriveSerTotal
import Verif.Props.DeriveSer

/-
C91: how much work writing takes.  `Model/CostWrite.lean` has the functions of the model with counts.
-/
namespace SX
open Spec Spec.Cost

/-- Implementations of `Serialize` that ask for mappings to `U.length` URLs at most: however deep elements are nested, no start tag has more mappings than that, each element
takes no more than that from the element around it, and choosing its prefixes takes at most `n * (n + 1) / 2` tries. -/
theorem C91_mappings (dbg : Bool) (sink : Sink) (U : List String) (name : EName) (attrs : AttrProg) (children : Prog [.writer false])
    (ha : AttrProg.Mappings (fun _ u => u ∈ U) attrs) (hc : Prog.Mappings (fun _ u => u ∈ U) children) :
    (Cost.serializeTo dbg sink name attrs children).2 = serializeTo dbg sink name attrs children ∧
    (let t := (Cost.serializeTo dbg sink name attrs children).1
     t.copied ≤ t.elements * U.length ∧ 2 * t.tried ≤ t.starts * (U.length * (U.length + 1))) ∧
    ∀ s r, serializeTo dbg sink name attrs children = .ok (s, r) → FewMappings U s.out :=
  ⟨Cost.serializeTo_value .., Cost.serializeTo_bounded dbg sink name attrs children ha hc, Cost.serializeTo_few dbg sink name attrs children ha hc⟩

/-- What is given to xml-rs is written, and only that: each event once if serialization succeeds. -/
theorem C91_events (dbg : Bool) (sink : Sink) (name : EName) (attrs : AttrProg) (children : Prog [.writer false]) (s : WState) (r : Except SErr Unit)
    (h : serializeTo dbg sink name attrs children = .ok (s, r)) :
    let t := (Cost.serializeTo dbg sink name attrs children).1
    s.out.length ≤ t.writes ∧ (r = .ok () → t.writes = s.out.length ∧ t.starts = startTags s.out) := by
  have hv := Cost.serializeTo_value dbg sink name attrs children
  rw [h] at hv
  generalize hq : Cost.serializeTo dbg sink name attrs children = q at hv
  obtain ⟨t, q⟩ := q
  dsimp only at hv
  subst hv
  obtain ⟨⟨h1, h2⟩, h3⟩ := Cost.serializeTo_accounted dbg sink name attrs children s r t hq
  refine ⟨by simpa using h1, fun hr => ?_⟩
  obtain ⟨-, h4, h5⟩ := h2 (h3 hr)
  simp only [List.length_nil, startTags] at h4 h5
  dsimp only
  exact ⟨by omega, by omega⟩

/-- Derived serializers: one element begun and started for each start tag written, and one more of each at most if serialization fails; so for types with mappings to `n`
URLs the work is at most `n * (n + 1) / 2` tries for each start tag.  If it succeeds then exactly the mappings of the element around are copied for each element, and each
mapping written took a try. -/
theorem C91_derived (dbg : Bool) (sink : Sink) (env : Env) (U : List String) (hU : ∀ ty, ∀ x ∈ declaredNs env ty, x.2 ∈ U) (name : EName) (ty : Ty) (v : Val)
    (hv : HasTy env ty v) (s : WState) (r : Except SErr Unit) (h : serializeVal dbg sink env name ty v = .ok (s, r)) :
    let t := (Cost.serializeTo dbg sink name (writeAttributes env ty v) (writeChildren env ty v .ret)).1
    FewMappings U s.out ∧
    t.writes ≤ s.out.length + 1 ∧ t.starts ≤ startTags s.out + 1 ∧ t.elements ≤ startTags s.out + 2 ∧
    t.copied ≤ (startTags s.out + 2) * U.length ∧ 2 * t.tried ≤ (startTags s.out + 1) * (U.length * (U.length + 1)) ∧
    (r = .ok () → t.writes = s.out.length ∧ t.starts = startTags s.out ∧ t.elements = startTags s.out ∧ t.copied = inherited [] s.out ∧ mappingsIn s.out ≤ t.tried) := by
  obtain ⟨as, g, hr⟩ := represents_exists hv name
  have hva := Cost.serializeTo_value dbg sink name (writeAttributes env ty v) (writeChildren env ty v .ret)
  have h' : serializeTo dbg sink name (writeAttributes env ty v) (writeChildren env ty v .ret) = .ok (s, r) := h
  rw [h'] at hva
  obtain ⟨-, ⟨h1, h2⟩, h3⟩ := C91_mappings dbg sink U name (writeAttributes env ty v) (writeChildren env ty v .ret)
    (mappings_attributes env hU ty v) (mappings_children env hU hr)
  obtain ⟨h4, h5⟩ := C91_events dbg sink name _ _ s r h'
  generalize hq : Cost.serializeTo dbg sink name (writeAttributes env ty v) (writeChildren env ty v .ret) = q at hva h1 h2 h4 h5
  obtain ⟨t, q⟩ := q
  dsimp only at hva h1 h2 h4 h5
  subst hva
  obtain ⟨h6, h7, h8, h9⟩ := Cost.serializeTo_thrifty dbg sink name _ _ (strict_children env hr) s r t hq
  dsimp only
  refine ⟨h3 s r h', h6, h7, by omega, Nat.le_trans h1 (Nat.mul_le_mul_right _ (by omega)), Nat.le_trans h2 (Nat.mul_le_mul_right _ h7), fun hr => ?_⟩
  obtain ⟨h10, h11⟩ := h5 hr
  have := h9 hr
  subst hr
  exact ⟨h10, h11, by omega, Cost.serializeTo_copied dbg sink name _ _ (strict_children env ‹_›) s t hq⟩

theorem elementStarts_append (l m : List EEvent) : elementStarts (l ++ m) = elementStarts l + elementStarts m := by
  induction l with
  | nil => simp [elementStarts]
  | cons e l ih => cases e <;> simp only [List.cons_append, elementStarts, ih] <;> omega

/-- What is written has as many events as the document it stands for. -/
theorem resolveEvents_counts {l : List WEvent} {scopes : List (SMap String)} {es : List EEvent} (h : resolveEvents l scopes = some es) :
    l.length = es.length ∧ startTags l = elementStarts es := by
  induction l generalizing scopes es with
  | nil => simp only [resolveEvents, Option.some.injEq] at h; subst h; exact ⟨rfl, rfl⟩
  | cons e l ih =>
    cases e with
    | start q as ns =>
      simp only [resolveEvents] at h
      split at h
      · rename_i h3
        simp only [Option.some.injEq] at h
        subst h
        obtain ⟨h1, h2⟩ := ih h3
        simp [startTags, elementStarts, h1, h2]
      · simp at h
    | chars s =>
      simp only [resolveEvents, Option.map_eq_some_iff] at h
      obtain ⟨es, h, rfl⟩ := h
      obtain ⟨h1, h2⟩ := ih h
      simp [startTags, elementStarts, h1, h2]
    | stop =>
      simp only [resolveEvents, Option.map_eq_some_iff] at h
      obtain ⟨es, h, rfl⟩ := h
      obtain ⟨h1, h2⟩ := ih h
      simp [startTags, elementStarts, h1, h2]

/-- Derived serializers, by the document that the value stands for: exactly one write for each event of it, one element begun for each of its elements, whatever types and
fields there are. -/
theorem C91_document (dbg : Bool) (sink : Sink) (env : Env) (henv : NamesDeclared env) (hd : AttrsDistinct env)
    (name : EName) (ty : Ty) (hn : ElemNsOk (urls (declaredNs env ty)) name) (v : Val) (as : List (EName × String)) (g : EForest)
    (h : Represents env name ty v as g) (hpf : RootPlainFree env name ty v) (s : WState) (hs : serializeVal dbg sink env name ty v = .ok (s, .ok ())) :
    let t := (Cost.serializeTo dbg sink name (writeAttributes env ty v) (writeChildren env ty v .ret)).1
    t.writes = g.events.length + 2 ∧ t.starts = elementStarts g.events + 1 ∧ t.elements = elementStarts g.events + 1 := by
  obtain ⟨s', r, h1, h2, -⟩ := C32_document_partial dbg sink env henv hd name ty hn v as g h hpf
  rw [hs] at h1
  cases h1
  obtain ⟨h3, h4⟩ := resolveEvents_counts (h2 rfl)
  have hva := Cost.serializeTo_value dbg sink name (writeAttributes env ty v) (writeChildren env ty v .ret)
  have h' : serializeTo dbg sink name (writeAttributes env ty v) (writeChildren env ty v .ret) = .ok (s, .ok ()) := hs
  rw [h'] at hva
  obtain ⟨-, h5⟩ := C91_events dbg sink name _ _ s _ h'
  generalize hq : Cost.serializeTo dbg sink name (writeAttributes env ty v) (writeChildren env ty v .ret) = q at hva h5
  obtain ⟨t, q⟩ := q
  dsimp only at hva h5
  subst hva
  obtain ⟨-, -, -, h9⟩ := Cost.serializeTo_thrifty dbg sink name _ _ (strict_children env h) s _ t hq
  obtain ⟨h10, h11⟩ := h5 rfl
  have h12 := h9 rfl
  simp only [List.length_cons, List.length_append, elementStarts, List.length_nil, elementStarts_append] at h3 h4
  dsimp only
  exact ⟨by omega, by omega, by omega⟩

example : ∃ s, serializeVal true ExS.fine ExS.env ExS.libName (.strct 0) ExS.lib = .ok (s, .ok ()) ∧
    2 * (Cost.serializeTo true ExS.fine ExS.libName (writeAttributes ExS.env (.strct 0) ExS.lib) (writeChildren ExS.env (.strct 0) ExS.lib .ret)).1.tried ≤
      startTags s.out * 6 := by
  obtain ⟨s, h, -⟩ := ExS.lib_out
  refine ⟨s, h, ?_⟩
  have hU : ∀ ty, ∀ x ∈ declaredNs ExS.env ty, x.2 ∈ ["urn:d", "urn:x"] := by
    intro ty x hx
    cases ty with
    | text t => simp [declaredNs] at hx
    | strct i =>
      simp only [declaredNs, ExS.env] at hx
      split at hx
      · simp only [List.mem_cons, List.not_mem_nil, or_false] at hx
        rcases hx with rfl | rfl <;> decide
      · simp only [List.mem_cons, List.not_mem_nil, or_false] at hx
        subst hx; decide
      · simp at hx
    | enm i =>
      simp only [declaredNs, ExS.env] at hx
      split at hx
      · simp only [List.mem_cons, List.not_mem_nil, or_false] at hx
        subst hx; decide
      · simp at hx
  obtain ⟨as, g, hr⟩ := represents_exists ExS.lib_ty ExS.libName
  obtain ⟨-, ⟨-, h1⟩, -⟩ := C91_mappings true ExS.fine ["urn:d", "urn:x"] ExS.libName _ _ (mappings_attributes ExS.env hU (.strct 0) ExS.lib) (mappings_children ExS.env hU hr)
  have h2 := (C91_derived true ExS.fine ExS.env ["urn:d", "urn:x"] hU ExS.libName (.strct 0) ExS.lib ExS.lib_ty s _ h).2.2.2.2.2.2 rfl
  rw [h2.2.1] at h1
  simpa using h1

/-- The 25 events of this document are 25 writes. -/
example : (Cost.serializeTo true ExS.fine ExS.libName (writeAttributes ExS.env (.strct 0) ExS.lib) (writeChildren ExS.env (.strct 0) ExS.lib .ret)).1.writes = 25 := by
  obtain ⟨s, h, h25⟩ := ExS.lib_out
  have := ((C91_events true ExS.fine ExS.libName _ _ s _ h).2 rfl).1
  rw [this, h25]

/-- And these are those of the document that the value stands for. -/
example : ∃ as g, Represents ExS.env ExS.libName (.strct 0) ExS.lib as g ∧ g.events.length = 23 := by
  obtain ⟨as, g, hr⟩ := represents_exists ExS.lib_ty ExS.libName
  obtain ⟨s, h, h25⟩ := ExS.lib_out
  have h1 := (C91_document true ExS.fine ExS.env ExS.env_declared ExS.env_distinct ExS.libName (.strct 0)
    (.inr (.inl (by simp [ExS.libName, urls, declaredNs, ExS.env]))) ExS.lib as g hr (rootPlainFree_of (.inr ⟨ExS.env_named, by decide⟩) ExS.lib_ty) s h).1
  have h2 := ((C91_events true ExS.fine ExS.libName _ _ s _ h).2 rfl).1
  exact ⟨as, g, hr, by omega⟩

end SX
