import Verif.Proof.OpenFails
import Verif.Props.OpenRead

/-
C79: which error reading derived types with fields of arbitrary types returns.
-/
namespace SX
open Spec Open Spec.Open

variable {σ τ α β : Type}

theorem readDoc_error (V : Visitor σ) (D : Deser σ β) (d : Doc) (E : Error) :
    readDoc V D d = .ok (.error E) ↔ ∃ e stop, deser V D [] d.root = .ok (.error e, stop) ∧ E = placed stop.path stop.pos e := by
  unfold readDoc
  rcases deser V D [] d.root with f | ⟨(e | e) | r, stop⟩
  · simp
  · constructor
    · intro h
      cases h
      exact ⟨_, _, rfl, rfl⟩
    · rintro ⟨e', stop', h, rfl⟩
      cases h
      rfl
  · constructor
    · intro h
      cases h
      exact ⟨_, _, rfl, rfl⟩
    · rintro ⟨e', stop', h, rfl⟩
      cases h
      rfl
  · simp

theorem read_via {τ' : Type} (dbg : Bool) (V : Visitor σ) (hd : dbg = false ∨ NoSwallow V) (raw : Raw σ τ' β) (emb : τ' → σ) (proj : σ → Option τ') (d : Doc) :
    read dbg V (deserVia raw emb proj) d.input = readDoc V (deserVia raw emb proj) d := by
  rcases hd with rfl | hN
  · exact C10_reader_in_sync _ _ _
  · cases dbg with
    | false => exact C10_reader_in_sync _ _ _
    | true => exact C10_reader_in_sync_debug _ _ hN (deserVia_noSwallow _ _ _) _

/-- C79: reading a derived struct from a document fails with an error exactly if something is refused (or missing), and the error is that of the first such
thing: an attribute, a child or text, in document order, that the implementation of a field's type refuses after everything before it was accepted; or, if
there is none, the first field in declaration order that got no value.  An error without a place gets that of the attribute, child or end tag. -/
theorem C79_struct (dbg : Bool) (V : Visitor σ) (hd : dbg = false ∨ NoSwallow V) (fields : List (OField σ τ α)) (hD : Distinct fields)
    (emb : List (OCell τ α) → σ) (proj : σ → Option (List (OCell τ α))) (hV : Includes V (structRaw fields) emb) (hp : ∀ t, proj (emb t) = some t)
    (d : Doc) (E : Error) :
    read dbg V (deserVia (structRaw fields) emb proj) d.input = .ok (.error E) ↔
      ∃ e stop, StructFails V [{ name := d.root.name, pos := d.root.pos }] fields d.root e stop ∧ E = placed stop.path stop.pos e := by
  rw [read_via dbg V hd, readDoc_error]
  simp only [struct_fails hV hD hp, List.nil_append]

/-- C79: the same for a derived enum: the first child that is a variant and whose payload's type refuses it; one of another variant; or there is no variant. -/
theorem C79_enum (dbg : Bool) (V : Visitor σ) (hd : dbg = false ∨ NoSwallow V) (ident : String) (vs : List (OVariant σ α)) (hs : Searchable vs)
    (emb : OEnum α → σ) (proj : σ → Option (OEnum α)) (hV : Includes V (enumRaw ident vs) emb) (hp : ∀ t, proj (emb t) = some t)
    (d : Doc) (E : Error) :
    read dbg V (deserVia (enumRaw ident vs) emb proj) d.input = .ok (.error E) ↔
      ∃ e stop, EnumFails V [{ name := d.root.name, pos := d.root.pos }] ident vs d.root e stop ∧ E = placed stop.path stop.pos e := by
  rw [read_via dbg V hd, readDoc_error]
  simp only [enum_fails hV hs hp, List.nil_append]

/-- C79: the same for derived types read from elements anywhere in a document. -/
theorem C79_nested (V : Visitor σ) (path : List StackElem) (x : Elem) (e : VErr) (stop : Stop) :
    (∀ (fields : List (OField σ τ α)) emb proj, Distinct fields → Includes V (structRaw fields) emb → (∀ t, proj (emb t) = some t) →
      (deser V (deserVia (structRaw fields) emb proj) path x = .ok (.error e, stop) ↔
        StructFails V (path ++ [{ name := x.name, pos := x.pos }]) fields x e stop)) ∧
    ∀ ident (vs : List (OVariant σ α)) emb proj, Searchable vs → Includes V (enumRaw ident vs) emb → (∀ t, proj (emb t) = some t) →
      (deser V (deserVia (enumRaw ident vs) emb proj) path x = .ok (.error e, stop) ↔
        EnumFails V (path ++ [{ name := x.name, pos := x.pos }]) ident vs x e stop) :=
  ⟨fun _ _ _ hD hV hp => struct_fails hV hD hp path x e stop, fun _ _ _ _ hs hV hp => enum_fails hV hs hp path x e stop⟩

/-- C79: there is one error at most: the first defect is unique, and something without defects has none. -/
theorem C79_unique (V : Visitor σ) (path : List StackElem) (fields : List (OField σ τ α)) (emb : List (OCell τ α) → σ) (proj : σ → Option (List (OCell τ α)))
    (hD : Distinct fields) (hV : Includes V (structRaw fields) emb) (hp : ∀ t, proj (emb t) = some t) (x : Elem) (e : VErr) (stop : Stop)
    (h : StructFails V (path ++ [{ name := x.name, pos := x.pos }]) fields x e stop) :
    (∀ e' stop', StructFails V (path ++ [{ name := x.name, pos := x.pos }]) fields x e' stop' → e' = e ∧ stop' = stop) ∧
    ¬ ∃ vs, StructRead V path fields x vs := by
  have h1 := (struct_fails hV hD hp path x e stop).mpr h
  refine ⟨fun e' stop' h' => ?_, ?_⟩
  · have h2 := (struct_fails hV hD hp path x e' stop').mpr h'
    rw [h1] at h2
    cases h2
    exact ⟨rfl, rfl⟩
  · rintro ⟨vs, h'⟩
    obtain ⟨s, h2⟩ := (struct_read hV hD hp path x vs).mpr h'
    rw [h1] at h2
    cases h2

/-! ### What the implementations for `T`, `Option<T>` and `Vec<T>` refuse -/

theorem perform_ret (V : Visitor σ) (D : Deser σ β) (here : List StackElem) (y : Elem) (g : Ret VErr β → Ret VErr α) (hg : ∀ v e, g (.ok v) ≠ .err e)
    (he : ∀ e, g (.err e) = .err e) (hpn : ∀ e, g .panic ≠ .err e) (e : VErr) (stop : Stop) :
    perform V here y ((D (infoOf here y)).map fun r => g (deserRet r)) = .ok (.err e, stop) ↔ deser V D here y = .ok (.error e, stop) := by
  rw [perform_map, deser_perform]
  rcases perform V here y (D (infoOf here y)) with f | ⟨f | (e' | v), st⟩
  · simp [Except.map, Except.bind]
  · simp [Except.map, Except.bind, deserRet, hpn]
  · simp [Except.map, Except.bind, deserRet, he]
  · simp [Except.map, Except.bind, deserRet, hg]

/-- C79: the first child for a field of type `T`, `Option<T>` or `Vec<T>` is refused if `T` cannot be read from it, with `T`'s error. -/
theorem C79_init (V : Visitor σ) (D : Deser σ β) (here : List StackElem) (y : Elem) (e : VErr) (stop : Stop) :
    (perform V here y ((deOne D).init (infoOf here y)) = .ok (.err e, stop) ↔ deser V D here y = .ok (.error e, stop)) ∧
    (perform V here y ((deOpt D).init (infoOf here y)) = .ok (.err e, stop) ↔ deser V D here y = .ok (.error e, stop)) ∧
    (perform V here y ((deVec D).init (infoOf here y)) = .ok (.err e, stop) ↔ deser V D here y = .ok (.error e, stop)) :=
  ⟨perform_ret V D here y (fun r => r) (fun _ _ h => by cases h) (fun _ => rfl) (fun _ h => by cases h) e stop,
    perform_ret V D here y (fun r =>
      match r with
      | .ok v => .ok (some v)
      | .err e => .err e
      | .panic => .panic) (fun _ _ h => by cases h) (fun _ => rfl) (fun _ h => by cases h) e stop,
    perform_ret V D here y (fun r =>
      match r with
      | .ok v => .ok [v]
      | .err e => .err e
      | .panic => .panic) (fun _ _ h => by cases h) (fun _ => rfl) (fun _ h => by cases h) e stop⟩

/-- C79: a later child for a field of type `T` or `Option<T>` is a duplicate, whatever is in it; for one of type `Vec<T>` it is refused if `T` cannot be read
from it. -/
theorem C79_update (V : Visitor σ) (D : Deser σ β) (here : List StackElem) (y : Elem) (e : VErr) (stop : Stop) :
    (∀ v, (∃ w, perform V here y ((deOne D).update v (infoOf here y)) = .ok ((w, .err e), stop)) ↔
      e = .wrap (.duplicateElement y.name.expanded) ∧ stop = { path := here ++ [{ name := y.name, pos := y.pos }], pos := y.pos }) ∧
    (∀ v, (∃ w, perform V here y ((deOpt D).update v (infoOf here y)) = .ok ((w, .err e), stop)) ↔
      e = .wrap (.duplicateElement y.name.expanded) ∧ stop = { path := here ++ [{ name := y.name, pos := y.pos }], pos := y.pos }) ∧
    ∀ l, (∃ w, perform V here y ((deVec D).update l (infoOf here y)) = .ok ((w, .err e), stop)) ↔ deser V D here y = .ok (.error e, stop) := by
  refine ⟨fun v => ?_, fun v => ?_, fun l => ?_⟩
  · simp [deOne, perform, infoOf, eq_comm]
  · simp [deOpt, perform, infoOf, eq_comm]
  · simp only [deVec]
    rw [perform_map, deser_perform]
    rcases perform V here y (D (infoOf here y)) with f | ⟨f | (e' | v), st⟩ <;> simp [Except.map, Except.bind, deserRet]

theorem first_elem (f : Forest) :
    f.firstElem = none ∧ f.children = [] ∨ ∃ c cs, f.firstElem = some { name := c.name, pos := c.pos } ∧ f.children = c :: cs := by
  induction f with
  | nil => exact .inl ⟨rfl, rfl⟩
  | chars s cd p rest ih => exact ih
  | misc m p rest ih => exact ih
  | elem n a ns p ch ep rest _ _ => exact .inr ⟨⟨n, a, ns, p, ch, ep⟩, _, rfl, rfl⟩

/-- C79: an element of a type with `ParseText` is refused if it has a child element, or if `parse` refuses its text. -/
theorem C79_text (V : Visitor σ) (parse : String → Ret DErr β) (path : List StackElem) (x : Elem) (e : VErr) (stop : Stop) :
    deser V (deText parse) path x = .ok (.error e, stop) ↔
      (∃ c cs, x.children.children = c :: cs ∧
        e = .propagate { kind := .msg (.elementInString c.name), stack := stop.path, pos := c.pos } ∧
        stop = { path := path ++ [{ name := x.name, pos := x.pos }, { name := c.name, pos := c.pos }], pos := c.pos }) ∨
      x.children.children = [] ∧ (∃ de, parse x.children.text = .err de ∧ e = .wrap de) ∧
        stop = { path := path ++ [{ name := x.name, pos := x.pos }], pos := x.endPos } := by
  rw [deser_perform]
  simp only [deText, perform, asText]
  rcases first_elem x.children with ⟨h1, h2⟩ | ⟨c, cs, h1, h2⟩
  · rw [h1, h2]
    rcases h : parse x.children.text with v | e' | _ <;> simp [h, eq_comm]
  · rw [h1, h2]
    simp only [List.append_assoc, List.cons_append, List.nil_append]
    constructor
    · intro h
      cases h
      exact .inl ⟨c, cs, rfl, rfl, rfl⟩
    · rintro (⟨c', cs', h, rfl, rfl⟩ | ⟨h, _⟩)
      · cases h
        rfl
      · cases h

/-- C79: an attribute for a field of type `T` or `Option<T>` is refused if `T`'s `parse` refuses its value. -/
theorem C79_attr (parse : String → Ret DErr β) (v : String) (e : VErr) :
    ((deAttr parse).init v = .err e ↔ ∃ de, parse v = .err de ∧ e = .wrap de) ∧
    ((deAttrOpt parse).init v = .err e ↔ ∃ de, parse v = .err de ∧ e = .wrap de) := by
  rcases h : parse v with r | e' | _ <;> simp [deAttr, deAttrOpt, h, eq_comm]

/-- C79: nothing for a field without a default is an error if the field's type is `T`, and none if it is `Option<T>` or `Vec<T>`. -/
theorem C79_missing (D : Deser σ β) (parse : String → Ret DErr β) (inj : β → α) (get : α → Option β) (injO : Option β → α) (getO : α → Option (Option β))
    (injL : List β → α) (getL : α → Option (List β)) (n : DName) (e : VErr) :
    (absent (τ := τ) ⟨n, .element ((deOne D).into inj get), none⟩ = .err e ↔ e = .wrap (.missingElement n.expanded)) ∧
    absent (τ := τ) ⟨n, .element ((deOpt D).into injO getO), none⟩ ≠ .err e ∧
    absent (τ := τ) ⟨n, .element ((deVec D).into injL getL), none⟩ ≠ .err e ∧
    (absent (σ := σ) (τ := τ) ⟨n, .attribute ((deAttr parse).into inj), none⟩ = .err e ↔ e = .wrap (.missingAttribute n.expanded)) ∧
    absent (σ := σ) (τ := τ) ⟨n, .attribute ((deAttrOpt parse).into injO), none⟩ ≠ .err e := by
  simp [absent, FieldImpl.into, AttrImpl.into, deOne, deOpt, deVec, deAttr, deAttrOpt, eq_comm]

/-- C79: an implementation whose values are seen as some of those of all fields refuses what it refuses. -/
theorem C79_into (V : Visitor σ) (impl : FieldImpl σ β) (attr : AttrImpl β) (inj : β → α) (get : α → Option β) (hg : ∀ v, get (inj v) = some v)
    (here : List StackElem) (y : Elem) (e : VErr) (stop : Stop) :
    (perform V here y ((impl.into inj get).init (infoOf here y)) = .ok (.err e, stop) ↔ perform V here y (impl.init (infoOf here y)) = .ok (.err e, stop)) ∧
    (∀ v, (∃ w, perform V here y ((impl.into inj get).update (inj v) (infoOf here y)) = .ok ((w, .err e), stop)) ↔
      ∃ w, perform V here y (impl.update v (infoOf here y)) = .ok ((w, .err e), stop)) ∧
    ∀ s, (attr.into inj).init s = .err e ↔ attr.init s = .err e := by
  refine ⟨?_, fun v => ?_, fun s => ?_⟩
  · simp only [FieldImpl.into, perform_map]
    rcases perform V here y (impl.init (infoOf here y)) with f | ⟨v | e' | _, st⟩ <;> simp [Except.map]
  · simp only [FieldImpl.into, hg, perform_map]
    rcases perform V here y (impl.update v (infoOf here y)) with f | ⟨⟨w, r⟩, st⟩ <;> simp [Except.map]
  · simp only [AttrImpl.into]
    rcases attr.init s with v | e' | _ <;> simp

namespace ExOR
open Ex

/-- The second note is a duplicate: what is refused, and the error that is returned. -/
theorem twice_fails : ∃ e stop, StructFails V [{ name := twice.root.name, pos := twice.root.pos }] fields twice.root e stop := by
  refine ⟨_, _, .elem (.elem (q "note") [] [] (p 2) (.chars "1" false (p 3) .nil) (p 4) .nil)
    ⟨q "note", [], [], p 5, .chars "2" false (p 6) .nil, p 7⟩ .nil [(other, 0)] (.wrap (.duplicateElement (q "note").expanded))
    ⟨[{ name := q "r", pos := p 1 }, { name := q "note", pos := p 5 }], p 5⟩ rfl ⟨⟨[(other, 0)], ?_, ?_⟩, ?_⟩ ?_⟩
  · exact if_pos ⟨_, .tail _ (.head _), ⟨_, rfl⟩, rfl⟩
  · exact if_pos ⟨_, .tail _ (.tail _ (.tail _ (.head _))), ⟨_, rfl⟩, rfl⟩
  · intro f hf
    simp only [fields, List.mem_cons, List.not_mem_nil, or_false] at hf
    rcases hf with rfl | rfl | rfl | rfl
    · exact fun h => by cases h
    · exact fun h => by cases h
    · trivial
    · exact fun h => by cases h
  · exact .inl ⟨_, .tail _ (.tail _ (.tail _ (.head _))), _, rfl, rfl, some (.note (some "1")), rfl, _, rfl⟩

example : ∃ e stop, (∀ e' stop', StructFails V [{ name := twice.root.name, pos := twice.root.pos }] fields twice.root e' stop' → e' = e ∧ stop' = stop) ∧
    ¬ ∃ vs, StructRead V [] fields twice.root vs :=
  let ⟨e, stop, h⟩ := twice_fails
  ⟨e, stop, C79_unique V [] fields .cells proj distinct includes (fun _ => rfl) twice.root e stop h⟩

example : ∃ E, read true V (deserVia (structRaw fields) .cells proj) twice.input = .ok (.error E) ∧
    E.kind = .deserializer (.duplicateElement ⟨"", "note"⟩) ∧ E.pos = p 5 := ⟨_, rfl, rfl, rfl⟩

/-- `<r>t</r>` -/
def noLen : Doc :=
  { startPos := p0, prolog := [], root := Elem.mk (q "r") [] [] (p 1) (.chars "t" false (p 2) .nil) (p 3), epilog := [], eofPos := p 4,
    epilogOk := by simp }

/-- Every type accepts what is there for it, but the attribute is missing: the error is placed at the end tag. -/
example : read true V (deserVia (structRaw fields) .cells proj) noLen.input =
    .ok (.error { kind := .deserializer (.missingAttribute ⟨"", "a"⟩), stack := [{ name := q "r", pos := p 1 }], pos := p 3 }) :=
  (C79_struct true V (.inr V_noSwallow) fields distinct .cells proj includes (fun _ => rfl) noLen _).mpr
    ⟨.wrap (.missingAttribute ⟨"", "a"⟩), _, .missing [(other, 0)] _ ⟨⟨[(other, 0)], rfl, rfl⟩, by
      intro f hf
      simp only [fields, List.mem_cons, List.not_mem_nil, or_false] at hf
      rcases hf with rfl | rfl | rfl | rfl
      · exact fun h => by cases h
      · exact fun h => by cases h
      · trivial
      · exact fun h => by cases h⟩
      (.laterPlain (v := .counts []) ⟨none, rfl, .inr ⟨rfl, rfl⟩⟩ (.plain (fun a ha => by cases ha) rfl)), rfl⟩

/-- `<e><x/><c/><nothing/></e>` -/
def both : Doc :=
  { startPos := p0, prolog := [],
    root := Elem.mk (q "e") [] [] (p 1)
      (.elem (q "x") [] [] (p 2) .nil (p 3) (.elem (q "c") [] [] (p 4) .nil (p 5) (.elem (q "nothing") [] [] (p 6) .nil (p 7) .nil))) (p 8),
    epilog := [], eofPos := p 9, epilogOk := by simp }

/-- A second variant is refused, with the name of the first. -/
example : read false V' (deserVia (enumRaw "E" variants') .enm proj') both.input =
    .ok (.error { kind := .deserializer (.unexpectedElement ⟨"", "nothing"⟩ ⟨"", "c"⟩),
                  stack := [{ name := q "e", pos := p 1 }, { name := q "nothing", pos := p 6 }], pos := p 6 }) :=
  (C79_enum false V' (.inl rfl) "E" variants' searchable' .enm proj' includes' (fun _ => rfl) both _).mpr
    ⟨_, _, .other (.elem (q "x") [] [] (p 2) .nil (p 3) (.elem (q "c") [] [] (p 4) .nil (p 5) .nil)) ⟨q "nothing", [], [], p 6, .nil, p 7⟩ .nil
      ⟨⟨none, "c"⟩, some (deVec countD')⟩ ⟨⟨none, "nothing"⟩, none⟩ (some [0]) rfl
      ⟨(fun h => by cases h), (fun w hw h => by
          simp only [variants', List.mem_cons, List.not_mem_nil, or_false] at hw
          rcases hw with rfl | rfl
          · rfl
          · exact absurd rfl h), [0], rfl, rfl⟩ (.head _) (.tail _ (.head _)) rfl (by decide), rfl⟩

end ExOR

end SX
