import Verif.Proof.AnyRest
import Verif.Props.Expanded
import Verif.Props.OpenRound

/- C92: the traits are enough to read and write any element. -/
namespace SX
open Spec

/-- C92: one implementation of the traits reads every document without losing or reordering any element, attribute or text, and writes
every element so that a reader that resolves names sees exactly that element, and so that it reads it back itself. -/
theorem C92_any : ∃ (σ : Type) (V : Visitor σ) (D : Deser σ AnyElement) (attrs : AnyElement → AttrProg) (children : AnyElement → Prog [.writer false]),
    (∀ dbg (d : Doc), read dbg V D d.input = .ok (.ok d.whole)) ∧
    ∀ e : AnyElement, e.AttrsOnce → ∀ dbg sink, ∃ s r, serializeTo dbg sink e.name (attrs e) (children e) = .ok (s, r) ∧
      ((∀ out ev, sink out ev = none) → r = .ok ()) ∧
      (r = .ok () → resolveEvents s.out [] = some e.events ∧ (∃ d, Transported s.out d) ∧
        ∀ d, Transported s.out d → ∀ dbg', read dbg' V D d.input = .ok (.ok e.visible)) := by
  have hread : ∀ dbg (d : Doc), read dbg Any.visitor Any.deser d.input = .ok (.ok d.whole) := fun dbg d => by
    rw [read_spec dbg _ _ (.inr ⟨Any.visitor_noSwallow, Any.deser_noSwallow⟩), Any.readDoc_all]
  refine ⟨_, Any.visitor, Any.deser, fun e => Any.attrs e.name e.attrs, fun e => Any.forest e.content .ret, hread, ?_⟩
  intro e he dbg sink
  obtain ⟨s, r, h⟩ := serializeTo_total dbg sink e.name _ _ (Any.document_declared e)
  refine ⟨s, r, h, fun hs => serializeTo_accepted hs h (Any.document_asked e he), ?_⟩
  rintro rfl
  obtain ⟨es, h1, h2⟩ := C29_declared_partial (Any.document_declared e) (Any.noForget_forest e.content _ fun _ => trivial) h
  rw [Any.document_asked e he] at h1
  cases h1
  refine ⟨h2, C43_transportable h2, ?_⟩
  intro d hd dbg'
  obtain ⟨n, as, f, k1, k2, k3, k4⟩ := C43_document _ d hd (by rw [h2]; rfl)
  rw [h2] at k1
  simp only [AnyElement.events, Option.some.injEq, List.cons.injEq, EEvent.start.injEq] at k1
  obtain ⟨⟨rfl, rfl⟩, k1⟩ := k1
  obtain ⟨rfl, -⟩ := events_inj _ _ [] [] k1
  rw [hread]
  simp only [Doc.whole, k2, k3, Any.denotes_whole k4, AnyElement.visible]

/-- C92: reading a document, writing what was read, and reading that gives the same again, if blank text was not reported as text. -/
theorem C92_copy : ∃ (σ : Type) (V : Visitor σ) (D : Deser σ AnyElement) (attrs : AnyElement → AttrProg) (children : AnyElement → Prog [.writer false]),
    ∀ d : Doc, d.whole.AttrsOnce → d.whole.visible = d.whole → ∀ dbg sink, (∀ out ev, sink out ev = none) →
      ∃ e s, read dbg V D d.input = .ok (.ok e) ∧ serializeTo dbg sink e.name (attrs e) (children e) = .ok (s, .ok ()) ∧
        (∃ d', Transported s.out d') ∧ ∀ d', Transported s.out d' → d'.whole = d.whole ∧ read dbg V D d'.input = .ok (.ok e) := by
  obtain ⟨σ, V, D, attrs, children, h1, h2⟩ := C92_any
  refine ⟨σ, V, D, attrs, children, ?_⟩
  intro d hd hv dbg sink hs
  obtain ⟨s, r, k1, k2, k3⟩ := h2 d.whole hd dbg sink
  obtain rfl := k2 hs
  obtain ⟨-, k4, k5⟩ := k3 rfl
  refine ⟨d.whole, s, h1 dbg d, k1, k4, ?_⟩
  intro d' hd'
  have := k5 d' hd' dbg
  rw [hv] at this
  refine ⟨?_, this⟩
  rw [h1] at this
  simpa using this

/-- C92: there is a type for flattened fields that keeps, in any derived struct with no other flattened field, all text and exactly the attributes and
children that no other field is for, in order and with everything in them (the other fields get what they always get); and that is read back from
what it writes, except for blank text. -/
theorem C92_rest : ∃ (keeper : {σ : Type} → (Rest → σ) → (σ → Option Rest) → Open.Raw σ Rest Rest) (ser : Rest → Open.Ser),
    ∀ (σ τ α : Type) (V : Visitor σ) (emb : Rest → σ) (proj : σ → Option Rest) (_ : ∀ t, proj (emb t) = some t) (_ : Open.Includes V (keeper emb proj) emb)
      (it : Rest → τ) (gt : τ → Option Rest) (_ : ∀ t, gt (it t) = some t) (inj : Rest → α) (get : α → Option Rest) (nm : DName) (df : Option (Open.Ret Empty α)),
    (∀ (pre post : List (Open.OField σ τ α)), (∀ f ∈ pre ++ post, ∀ raw, f.kind ≠ .flatten raw) → ∀ path x vs,
      (Open.StructRead V path (pre ++ ⟨nm, .flatten ((keeper emb proj).into it gt inj get), df⟩ :: post) x vs ↔
        ∃ vs1 vs2, vs = vs1 ++ inj (leftAttrs (Open.IsAttribute (pre ++ post)) x.attrs, x.children.left (Open.IsElement (pre ++ post))) :: vs2 ∧
          Rowwise (Open.Gets V (path ++ [{ name := x.name, pos := x.pos }]) x) pre vs1 ∧
          Rowwise (Open.Gets V (path ++ [{ name := x.name, pos := x.pos }]) x) post vs2)) ∧
    ∀ (fields : List (Open.OField σ τ α)) (v : Rest), (v.1.map Prod.fst).Nodup → v.2.AttrsOnce → (∀ a ∈ v.1, ¬ Open.IsAttribute fields a.1) →
      Open.Others (Open.IsElement fields) v.2 →
      Open.FieldBack V fields ⟨⟨nm, .flatten ((keeper emb proj).into it gt inj get), df⟩, .flatten (ser v), inj (v.1, v.2.visible)⟩ := by
  refine ⟨Any.keeper, Any.restSer, ?_⟩
  intro σ τ α V emb proj hp hV it gt ht inj get nm df
  constructor
  · intro pre post hpp path x vs
    have h1 : ∀ f ∈ pre, ∀ raw, f.kind ≠ .flatten raw := fun f hf => hpp f (by simp [hf])
    have h2 : ∀ f ∈ post, ∀ raw, f.kind ≠ .flatten raw := fun f hf => hpp f (by simp [hf])
    generalize hk : (⟨nm, .flatten ((Any.keeper emb proj).into it gt inj get), df⟩ : Open.OField σ τ α) = k
    have hA : Open.IsAttribute (pre ++ k :: post) = Open.IsAttribute (pre ++ post) := by
      funext n
      apply propext
      constructor
      · rintro ⟨f, hf, ⟨impl, hi⟩, hn⟩
        refine ⟨f, ?_, ⟨impl, hi⟩, hn⟩
        simp only [List.mem_append, List.mem_cons] at hf ⊢
        rcases hf with h | rfl | h
        · exact .inl h
        · subst hk; cases hi
        · exact .inr h
      · rintro ⟨f, hf, hi⟩
        refine ⟨f, ?_, hi⟩
        simp only [List.mem_append, List.mem_cons] at hf ⊢
        rcases hf with h | h
        · exact .inl h
        · exact .inr (.inr h)
    have hE : Open.IsElement (pre ++ k :: post) = Open.IsElement (pre ++ post) := by
      funext n
      apply propext
      constructor
      · rintro ⟨f, hf, ⟨impl, hi⟩, hn⟩
        refine ⟨f, ?_, ⟨impl, hi⟩, hn⟩
        simp only [List.mem_append, List.mem_cons] at hf ⊢
        rcases hf with h | rfl | h
        · exact .inl h
        · subst hk; cases hi
        · exact .inr h
      · rintro ⟨f, hf, hi⟩
        refine ⟨f, ?_, hi⟩
        simp only [List.mem_append, List.mem_cons] at hf ⊢
        rcases hf with h | h
        · exact .inl h
        · exact .inr (.inr h)
    have hN : Open.newFlats (pre ++ k :: post) = [((Any.keeper emb proj).into it gt inj get, it ([], .nil))] := by
      rw [Any.newFlats_plain pre h1]
      have := Any.newFlats_plain post h2 []
      simp only [List.append_nil, Open.newFlats] at this
      subst hk
      simp only [Open.newFlats, this]
      rfl
    unfold Open.StructRead
    rw [hN, Any.rest_attrs (proj := proj) ht inj get, hA]
    simp only [Option.some.injEq]
    constructor
    · rintro ⟨l, l', rfl, h3, h4⟩
      rw [Any.rest_content hp hV ht inj get, hE] at h3
      cases h3
      rw [Any.allGet_plain pre h1] at h4
      obtain ⟨vs1, vs2, rfl, h5, h6⟩ := h4
      cases h6 with
      | plain hv _ =>
        obtain ⟨c, hc, -⟩ := hv
        subst hk
        exact absurd hc id
      | flat hk' hf hv h7 =>
        have h8 := (Any.allGet_plain post h2 [] [] _).mp (by simpa using h7)
        obtain ⟨ws, us, rfl, h9, h10⟩ := h8
        cases h10
        simp only [Open.Raw.into, ht, Any.keeper, Open.stateInto, Except.ok.injEq, Prod.mk.injEq, and_true] at hf
        subst hf
        simp only [Open.Raw.into, ht, Any.keeper, Option.bind, Option.map, Option.some.injEq] at hv
        subst hv
        refine ⟨vs1, ws, ?_, h5, h9⟩
        simp [EForest.append]
    · rintro ⟨vs1, vs2, rfl, h5, h9⟩
      refine ⟨_, _, rfl, Any.rest_content hp hV ht inj get _ _ _ _, ?_⟩
      rw [Any.allGet_plain pre h1]
      refine ⟨vs1, _, rfl, h5, ?_⟩
      refine .flat (raw := (Any.keeper emb proj).into it gt inj get) (t' := it (leftAttrs (Open.IsAttribute (pre ++ post)) x.attrs, x.children.left (Open.IsElement (pre ++ post)))) (by subst hk; rfl) ?_ ?_ ?_
      · simp [Open.Raw.into, ht, Any.keeper, Open.stateInto, hE, EForest.append]
      · simp [Open.Raw.into, ht, Any.keeper]
      · have := (Any.allGet_plain (V := V) (x := x) (here := path ++ [{ name := x.name, pos := x.pos }]) post h2 [] [] vs2).mpr ⟨vs2, [], by simp, h9, .nil⟩
        simpa using this
  · intro fields v h1 h2 h3 h4
    refine ⟨v.1, v.2, Any.asks_attrs _ _ h1, ?_, h3, h4, ?_⟩
    · have := Any.asks_forest v.2 h2 (o := false) (hs := []) .ret []
      simpa [Any.restSer, before, Prog.asks] using this
    · intro path e A F hA hF
      have hfin : ∀ t d, ((Any.keeper emb proj).into it gt inj get).finalize (it t) d = .ok (it t, .ok ()) := by
        intro t d
        simp [Open.Raw.into, ht, Any.keeper, Open.stateInto]
      refine ⟨_, _, _, Any.rest_attrs (proj := proj) ht inj get _ _ _, Any.rest_content hp hV ht inj get _ _ _ _, hfin _ _, ?_⟩
      rw [Any.left_nil, Any.leftAttrs_nil, hA, Any.denotes_whole hF]
      simp [Open.Raw.into, ht, Any.keeper, EForest.append]

namespace ExAny

/-- `<p>foo<i xml:lang="de">bar</i>baz</p>` of README.md:50-52, with an attribute. -/
def mixed : AnyElement :=
  { name := ⟨"urn:x", "p"⟩, attrs := [(⟨"", "id"⟩, "1"), (⟨"urn:y", "id"⟩, "2")],
    content := .chars "foo" (.elem ⟨"", "i"⟩ [(⟨xmlNs, "lang"⟩, "de")] (.chars "bar" .nil) (.chars "baz" .nil)) }

example : mixed.AttrsOnce ∧ mixed.visible = mixed := by
  refine ⟨⟨by decide, by simp [mixed, EForest.AttrsOnce]⟩, by decide⟩

/-- `<p>foobaz<i>bar</i></p>` is another element. -/
example : mixed ≠ { mixed with content := .chars "foobaz" (.elem ⟨"", "i"⟩ [(⟨xmlNs, "lang"⟩, "de")] (.chars "bar" .nil) .nil) } := by decide

/-- Blank text is written and not seen by readers, so the hypothesis of `C92_copy` is needed. -/
example : (EForest.chars " " .nil).visible = .nil := by decide

/-- A document that meets the hypotheses of `C92_copy`. -/
example : Ex.recDoc.whole.AttrsOnce ∧ Ex.recDoc.whole.visible = Ex.recDoc.whole ∧ Ex.recDoc.whole.content ≠ .nil := by
  refine ⟨⟨by decide, ?_⟩, by decide, by decide⟩
  simp [Ex.recDoc, Ex.docOf, Ex.leaf, Ex.empt, Doc.whole, Forest.whole, EForest.AttrsOnce]

/-- The values of the fields of README.md:98-103. -/
inductive Vl where
  | text (s : String)
  | rest (r : Rest)
  deriving DecidableEq, Repr

/-- Its visitors. -/
inductive St where
  | cells (l : List (Open.OCell Rest Vl))
  | rest (r : Rest)

def getText : Vl → Option String
  | .text s => some s
  | _ => none

def getRest : Vl → Option Rest
  | .rest r => some r
  | _ => none

def projRest : St → Option Rest
  | .rest r => some r
  | _ => none

def projCells : St → Option (List (Open.OCell Rest Vl))
  | .cells r => some r
  | _ => none

/-- `struct Foo { known_field: String, #[static_xml(flatten)] unknown_fields: Rest }` -/
def fields : List (Open.OField St Rest Vl) :=
  [⟨⟨none, "known"⟩, .element ((Open.deOne (Open.deText .ok)).into .text getText), none⟩,
   ⟨⟨none, "unknown"⟩, .flatten ((Any.keeper .rest projRest).into id some .rest getRest), none⟩]

def V : Visitor St where
  onAttr s n v :=
    match s with
    | .cells t => Open.heardText .cells ((Open.structRaw fields).attr t n v)
    | .rest t => Open.heardText .rest ((Any.keeper .rest projRest).attr t n v)
  onChars s v pos :=
    match s with
    | .cells t => Open.heardText .cells ((Open.structRaw fields).characters t v pos)
    | .rest t => Open.heardText .rest ((Any.keeper .rest projRest).characters t v pos)
  onElem s info :=
    match s with
    | .cells t => Open.heardElem .cells ((Open.structRaw fields).element t info)
    | .rest t => Open.heardElem .rest ((Any.keeper .rest projRest).element t info)

/-- The hypotheses of `C92_rest` hold. -/
example : (∀ t, projRest (.rest t) = some t) ∧ Open.Includes V (Any.keeper .rest projRest) .rest ∧ Open.Includes V (Open.structRaw fields) .cells :=
  ⟨fun _ => rfl, ⟨fun _ _ _ => rfl, fun _ _ _ => rfl, fun _ _ => rfl⟩, ⟨fun _ _ _ => rfl, fun _ _ _ => rfl, fun _ _ => rfl⟩⟩

open Ex in
/-- `<r id="7">foo<a x="1">1<b/></a><known>K</known>bar</r>` -/
def doc : Doc := docOf [{ name := q "id", value := "7" }]
  (.chars "foo" false (p 2) (.elem (q "a") [{ name := q "x", value := "1" }] [] (p 3) (.chars "1" false (p 4) (empt (q "b") .nil)) (p 5)
    (leaf (q "known") "K" (.chars "bar" false (p 6) .nil))))

/-- Nothing is lost. -/
example : read true V (Open.deserVia (Open.structRaw fields) .cells projCells) doc.input =
    .ok (.ok [.text "K", .rest ([(⟨"", "id"⟩, "7")],
      .chars "foo" (.elem ⟨"", "a"⟩ [(⟨"", "x"⟩, "1")] (.chars "1" (.elem ⟨"", "b"⟩ [] .nil .nil)) (.chars "bar" .nil)))]) := rfl

end ExAny

end SX
