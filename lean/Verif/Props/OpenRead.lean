import Verif.Proof.OpenBlanket
import Verif.Proof.OpenDerived
import Verif.Props.Reader

/-
C76: derived types whose fields have arbitrary types, read from documents.
-/
namespace SX
open Spec Open Spec.Open

variable {σ τ α β : Type}

namespace ExOR

/-- Values of all types of the example. -/
inductive Vl where
  | len (n : Nat)
  | note (s : Option String)
  | counts (l : List Nat)
  | other (n : Nat)
  deriving DecidableEq, Repr

/-- The visitors of the example: that of the struct, and one that counts children. -/
inductive St where
  | cells (l : List (OCell Nat Vl))
  | count (n : Nat)

/-- A type written by hand: how many children an element has. -/
def countD : Deser St Nat := fun _ => .readTo (.count 0) fun s r =>
  match r, s with
  | .error e, _ => .ok (.error e)
  | .ok _, .count n => .ok (.ok n)
  | .ok _, _ => .error .panic

/-- A flattened type written by hand: how many other children there are. -/
def other : Raw St Nat Vl where
  new := 0
  attr t _ v := .ok (t, .ok (some v))
  characters t s _ := .ok (t, .ok (some s))
  element t _ := .ok (.take (.done (.ok (t + 1, .ok ()))))
  finalize t _ := .ok (t, .ok ())
  out t := some (.other t)

def getNote : Vl → Option (Option String)
  | .note s => some s
  | _ => none

def getCounts : Vl → Option (List Nat)
  | .counts l => some l
  | _ => none

def fields : List (OField St Nat Vl) :=
  [⟨⟨none, "c"⟩, .element ((deVec countD).into .counts getCounts), none⟩,
   ⟨⟨none, "a"⟩, .attribute ((deAttr fun s => .ok s.length).into .len), none⟩,
   ⟨⟨none, "rest"⟩, .flatten other, none⟩,
   ⟨⟨none, "note"⟩, .element ((deOpt (deText fun s => if s = "bad" then .err (.user "bad") else .ok s)).into .note getNote), some (.ok (.note (some "-")))⟩]

def V : Visitor St where
  onAttr s n v :=
    match s with
    | .cells t => heardText .cells ((structRaw fields).attr t n v)
    | .count n => .ok (.count n, .ok ())
  onChars s v pos :=
    match s with
    | .cells t => heardText .cells ((structRaw fields).characters t v pos)
    | .count n => .ok (.count n, .ok ())
  onElem s info :=
    match s with
    | .cells t => heardElem .cells ((structRaw fields).element t info)
    | .count n => .done (.ok (.count (n + 1), .ok ()))

def proj : St → Option (List (OCell Nat Vl))
  | .cells t => some t
  | _ => none

theorem includes : Includes V (structRaw fields) .cells where
  attr _ _ _ := rfl
  chars _ _ _ := rfl
  elem _ _ := rfl

theorem distinct : Distinct fields := by
  intro p q f g hp hq hn hk
  match p, q with
  | 0, 0 => rfl
  | 1, 1 => rfl
  | 2, 2 => rfl
  | 3, 3 => rfl
  | 0, 1 | 1, 0 | 0, 2 | 2, 0 | 0, 3 | 3, 0 | 1, 2 | 2, 1 | 1, 3 | 3, 1 | 2, 3 | 3, 2 =>
    simp only [fields, List.getElem?_cons_zero, List.getElem?_cons_succ, Option.some.injEq] at hp hq
    subst hp hq
    simp [DName.expanded] at hn
  | p + 4, _ => simp [fields] at hp
  | _, q + 4 => simp [fields] at hq

open Ex in
/-- `<r a="xyz"><c><g/><g/></c>t<x/><c/></r>` -/
def doc : Doc :=
  { startPos := p0, prolog := [],
    root := Elem.mk (q "r") [{ name := q "a", value := "xyz" }] [] (p 1)
      (.elem (q "c") [] [] (p 2) (.elem (q "g") [] [] (p 3) .nil (p 4) (.elem (q "g") [] [] (p 5) .nil (p 6) .nil)) (p 7)
        (.chars "t" false (p 8) (.elem (q "x") [] [] (p 9) .nil (p 10) (.elem (q "c") [] [] (p 11) .nil (p 12) .nil)))) (p 13),
    epilog := [], eofPos := p 14, epilogOk := by simp }

end ExOR

/-! ## C76 -/

/-- C76: a derived struct, whatever the types of its fields are, is read from a document exactly if each field gets its value: from the children or
the attribute with its name, from its default, or, if it is flattened, from all that is not declared. -/
theorem C76_struct (dbg : Bool) (V : Visitor σ) (hd : dbg = false ∨ NoSwallow V) (fields : List (OField σ τ α)) (hD : Distinct fields)
    (emb : List (OCell τ α) → σ) (proj : σ → Option (List (OCell τ α))) (hV : Includes V (structRaw fields) emb) (hp : ∀ t, proj (emb t) = some t)
    (d : Doc) (vs : List α) :
    read dbg V (deserVia (structRaw fields) emb proj) d.input = .ok (.ok vs) ↔ StructRead V [] fields d.root vs := by
  have h : read dbg V (deserVia (structRaw fields) emb proj) d.input = readDoc V (deserVia (structRaw fields) emb proj) d := by
    rcases hd with rfl | hN
    · exact C10_reader_in_sync _ _ _
    · cases dbg with
      | false => exact C10_reader_in_sync _ _ _
      | true => exact C10_reader_in_sync_debug _ _ hN (deserVia_noSwallow _ _ _) _
  rw [h, readDoc_ok]
  exact struct_read hV hD hp [] d.root vs

/-- C76: a derived enum is read exactly if there are children of exactly one variant, and the payload is what its type makes of them. -/
theorem C76_enum (dbg : Bool) (V : Visitor σ) (hd : dbg = false ∨ NoSwallow V) (ident : String) (vs : List (OVariant σ α)) (hs : Searchable vs)
    (emb : OEnum α → σ) (proj : σ → Option (OEnum α)) (hV : Includes V (enumRaw ident vs) emb) (hp : ∀ t, proj (emb t) = some t)
    (d : Doc) (r : Nat × Option α) :
    read dbg V (deserVia (enumRaw ident vs) emb proj) d.input = .ok (.ok r) ↔ EnumRead V [] vs d.root r := by
  have h : read dbg V (deserVia (enumRaw ident vs) emb proj) d.input = readDoc V (deserVia (enumRaw ident vs) emb proj) d := by
    rcases hd with rfl | hN
    · exact C10_reader_in_sync _ _ _
    · cases dbg with
      | false => exact C10_reader_in_sync _ _ _
      | true => exact C10_reader_in_sync_debug _ _ hN (deserVia_noSwallow _ _ _) _
  rw [h, readDoc_ok]
  exact enum_read hV hs hp [] d.root r

/-- C76: the same for an element anywhere in a document, so that the derived types can be types of fields. -/
theorem C76_nested (V : Visitor σ) (path : List StackElem) (x : Elem) :
    (∀ (fields : List (OField σ τ α)) emb proj (vs : List α), Distinct fields → Includes V (structRaw fields) emb → (∀ t, proj (emb t) = some t) →
      (Reads V (deserVia (structRaw fields) emb proj) path x vs ↔ StructRead V path fields x vs)) ∧
    ∀ ident (vs : List (OVariant σ α)) emb proj r, Searchable vs → Includes V (enumRaw ident vs) emb → (∀ t, proj (emb t) = some t) →
      (Reads V (deserVia (enumRaw ident vs) emb proj) path x r ↔ EnumRead V path vs x r) :=
  ⟨fun _ _ _ _ hD hV hp => struct_read hV hD hp path x _, fun _ _ _ _ _ hs hV hp => enum_read hV hs hp path x _⟩

/-- The example document is read, so its fields have got their values: two counts from the hand-written type, a length, the number of other
children, and a default. -/
example : StructRead ExOR.V [] ExOR.fields ExOR.doc.root [.counts [2, 0], .len 3, .other 1, .note (some "-")] :=
  (C76_struct false ExOR.V (.inl rfl) ExOR.fields ExOR.distinct .cells ExOR.proj ExOR.includes (fun _ => rfl) ExOR.doc _).mp rfl

/-! ### Fields of any types that can be read -/

/-- The hypotheses on values of types among all values. -/
example : (∀ b, ExOR.getNote (.note b) = some b) ∧ ∀ b, ExOR.getCounts (.counts b) = some b := ⟨fun _ => rfl, fun _ => rfl⟩

theorem gets_element {V : Visitor σ} {here : List StackElem} {x : Elem} {nm : DName} {impl : FieldImpl σ α} {df : Option (Ret Empty α)} {v : α} :
    Gets V here x (⟨nm, .element impl, df⟩ : OField σ τ α) v ↔
      ∃ c, fill V here impl none (x.children.childrenNamed nm.expanded) = some c ∧
        (c = some v ∨ c = none ∧ absent (⟨nm, .element impl, df⟩ : OField σ τ α) = .ok v) := Iff.rfl

/-- C76: a field of type `T`: there is exactly one child with its name, and `T` makes the value of it. -/
theorem C76_one (V : Visitor σ) (D : Deser σ β) (inj : β → α) (get : α → Option β) (hg : ∀ b, get (inj b) = some b) (here : List StackElem) (x : Elem)
    (nm : DName) (v : α) :
    Gets V here x (⟨nm, .element ((deOne D).into inj get), none⟩ : OField σ τ α) v ↔
      ∃ y w, x.children.childrenNamed nm.expanded = [y] ∧ Reads V D here y w ∧ v = inj w := by
  rw [gets_element, show (none : Option α) = (none : Option β).map inj from rfl]
  simp only [fill_into V here _ inj get hg]
  constructor
  · rintro ⟨c, h, h'⟩
    obtain ⟨c, hc, rfl⟩ := Option.map_eq_some_iff.mp h
    rcases (fill_one V D here _ c).mp hc with ⟨-, rfl⟩ | ⟨y, w, hy, rfl, hw⟩
    · rcases h' with h' | ⟨-, h'⟩ <;> cases h'
    · rcases h' with h' | ⟨h', -⟩
      · cases h'
        exact ⟨y, w, hy, hw, rfl⟩
      · cases h'
  · rintro ⟨y, w, hy, hw, rfl⟩
    exact ⟨some (inj w), by rw [(fill_one V D here _ (some w)).mpr (.inr ⟨y, w, hy, rfl, hw⟩)]; rfl, .inl rfl⟩

/-- C76: a field of type `Option<T>`: there is no such child, or there is one. -/
theorem C76_opt (V : Visitor σ) (D : Deser σ β) (inj : Option β → α) (get : α → Option (Option β)) (hg : ∀ b, get (inj b) = some b)
    (here : List StackElem) (x : Elem) (nm : DName) (v : α) :
    Gets V here x (⟨nm, .element ((deOpt D).into inj get), none⟩ : OField σ τ α) v ↔
      x.children.childrenNamed nm.expanded = [] ∧ v = inj none ∨
      ∃ y w, x.children.childrenNamed nm.expanded = [y] ∧ Reads V D here y w ∧ v = inj (some w) := by
  rw [gets_element, show (none : Option α) = (none : Option (Option β)).map inj from rfl]
  simp only [fill_into V here _ inj get hg]
  constructor
  · rintro ⟨c, h, h'⟩
    obtain ⟨c, hc, rfl⟩ := Option.map_eq_some_iff.mp h
    rcases (fill_opt V D here _ c).mp hc with ⟨hy, rfl⟩ | ⟨y, w, hy, rfl, hw⟩
    · rcases h' with h' | ⟨-, h'⟩
      · cases h'
      · cases h'
        exact .inl ⟨hy, rfl⟩
    · rcases h' with h' | ⟨h', -⟩
      · cases h'
        exact .inr ⟨y, w, hy, hw, rfl⟩
      · cases h'
  · rintro (⟨hy, rfl⟩ | ⟨y, w, hy, hw, rfl⟩)
    · exact ⟨none, by rw [(fill_opt V D here _ none).mpr (.inl ⟨hy, rfl⟩)]; rfl, .inr ⟨rfl, rfl⟩⟩
    · exact ⟨some (inj (some w)), by rw [(fill_opt V D here _ (some (some w))).mpr (.inr ⟨y, w, hy, rfl, hw⟩)]; rfl, .inl rfl⟩

/-- C76: a field of type `Vec<T>`: `T` makes a value of each such child, in document order. -/
theorem C76_vec (V : Visitor σ) (D : Deser σ β) (inj : List β → α) (get : α → Option (List β)) (hg : ∀ b, get (inj b) = some b)
    (here : List StackElem) (x : Elem) (nm : DName) (v : α) :
    Gets V here x (⟨nm, .element ((deVec D).into inj get), none⟩ : OField σ τ α) v ↔
      ∃ l, v = inj l ∧ Rowwise (Reads V D here) (x.children.childrenNamed nm.expanded) l := by
  rw [gets_element, show (none : Option α) = (none : Option (List β)).map inj from rfl]
  simp only [fill_into V here _ inj get hg]
  constructor
  · rintro ⟨c, h, h'⟩
    obtain ⟨c, hc, rfl⟩ := Option.map_eq_some_iff.mp h
    rcases (fill_vec V D here _ c).mp hc with ⟨hy, rfl⟩ | ⟨-, w, rfl, hw⟩
    · rcases h' with h' | ⟨-, h'⟩
      · cases h'
      · cases h'
        rw [hy]
        exact ⟨[], rfl, .nil⟩
    · rcases h' with h' | ⟨h', -⟩
      · cases h'
        exact ⟨w, rfl, hw⟩
      · cases h'
  · rintro ⟨l, rfl, hl⟩
    by_cases hy : x.children.childrenNamed nm.expanded = []
    · rw [hy] at hl
      cases hl
      exact ⟨none, by rw [(fill_vec V D here _ none).mpr (.inl ⟨hy, rfl⟩)]; rfl, .inr ⟨rfl, rfl⟩⟩
    · exact ⟨some (inj l), by rw [(fill_vec V D here _ (some l)).mpr (.inr ⟨hy, l, rfl, hl⟩)]; rfl, .inl rfl⟩

/-- C76: a field marked `default`, of whatever type: the default exactly if there is no such child. -/
theorem C76_default (V : Visitor σ) (impl : FieldImpl σ α) (here : List StackElem) (x : Elem) (nm : DName) (d v : α) :
    Gets V here x (⟨nm, .element impl, some (.ok d)⟩ : OField σ τ α) v ↔
      x.children.childrenNamed nm.expanded = [] ∧ v = d ∨
      x.children.childrenNamed nm.expanded ≠ [] ∧ fill V here impl none (x.children.childrenNamed nm.expanded) = some (some v) := by
  rw [gets_element]
  have hsome : ∀ (xs : List Elem) (w : α), fill V here impl (some w) xs ≠ some none := by
    intro xs
    induction xs with
    | nil => intro w h; cases h
    | cons y ys ih =>
      intro w h
      simp only [fill] at h
      split at h
      · exact ih _ h
      · cases h
  have hne : ∀ (xs : List Elem), xs ≠ [] → fill V here impl none xs ≠ some none := by
    intro xs hx h
    cases xs with
    | nil => exact hx rfl
    | cons y ys =>
      simp only [fill] at h
      split at h
      · exact hsome _ _ h
      · cases h
  constructor
  · rintro ⟨c, h, h'⟩
    by_cases hx : x.children.childrenNamed nm.expanded = []
    · rw [hx] at h
      cases h
      rcases h' with h' | ⟨-, h'⟩
      · cases h'
      · cases h'
        exact .inl ⟨hx, rfl⟩
    · rcases h' with rfl | ⟨rfl, -⟩
      · exact .inr ⟨hx, h⟩
      · exact absurd h (hne _ hx)
  · rintro (⟨hx, rfl⟩ | ⟨hx, h⟩)
    · exact ⟨none, by rw [hx]; rfl, .inr ⟨rfl, rfl⟩⟩
    · exact ⟨some v, h, .inl rfl⟩

/-- C76: an attribute field of type `T` or `Option<T>`. -/
theorem C76_attribute (V : Visitor σ) (parse : String → Ret DErr β) (here : List StackElem) (x : Elem) (nm : DName) (v : α) :
    (∀ inj : β → α, Gets V here x (⟨nm, .attribute ((deAttr parse).into inj), none⟩ : OField σ τ α) v ↔
      ∃ a w, x.attrs.filter (fun a => a.name.expanded == nm.expanded) = [a] ∧ parse a.value = .ok w ∧ v = inj w) ∧
    ∀ inj : Option β → α, Gets V here x (⟨nm, .attribute ((deAttrOpt parse).into inj), none⟩ : OField σ τ α) v ↔
      x.attrs.filter (fun a => a.name.expanded == nm.expanded) = [] ∧ v = inj none ∨
      ∃ a w, x.attrs.filter (fun a => a.name.expanded == nm.expanded) = [a] ∧ parse a.value = .ok w ∧ v = inj (some w) := by
  unfold Gets
  simp only [fillAttr_into]
  generalize x.attrs.filter (fun a => a.name.expanded == nm.expanded) = as
  match as with
  | [] => simp [fillAttr, absent, AttrImpl.into, deAttr, deAttrOpt, eq_comm]
  | [a] =>
    simp only [fillAttr, deAttr, deAttrOpt]
    cases hp : parse a.value with
    | ok w => simp [hp, eq_comm]
    | err e => simp [hp]
    | panic => simp [hp]
  | _ :: _ :: _ => simp [fillAttr]

/-- C76: a type with `ParseText` is read from an element without child elements, from all its text. -/
theorem C76_text (V : Visitor σ) (parse : String → Ret DErr β) (path : List StackElem) (x : Elem) (v : β) :
    Reads V (deText parse) path x v ↔ x.children.children = [] ∧ parse x.children.text = .ok v := by
  have h1 : ∀ f : Forest, f.firstElem = none ↔ f.children = [] := by
    intro f
    induction f with
    | nil => simp [Forest.firstElem, Forest.children]
    | elem => simp [Forest.firstElem, Forest.children]
    | chars _ _ _ _ ih => simpa [Forest.firstElem, Forest.children] using ih
    | misc _ _ _ ih => simpa [Forest.firstElem, Forest.children] using ih
  rw [← h1, reads_perform]
  simp only [deText, perform, asText]
  cases x.children.firstElem with
  | some c => simp
  | none =>
    simp only [true_and]
    cases parse x.children.text <;> simp

/-- C76: in debug builds too: the generated visitors pass on the errors of reading children, if the implementations for the types of their fields do;
and those for `T`, `Option<T>` and `Vec<T>` do if `T` does, as derived types and text types do. -/
theorem C76_strict :
    (∀ fields : List (OField σ τ α), (∀ f ∈ fields, ∀ impl, f.kind = .element impl → Strict impl) →
      (∀ f ∈ fields, ∀ raw, f.kind = .flatten raw → RawStrict raw) → RawStrict (structRaw fields)) ∧
    (∀ ident (vs : List (OVariant σ α)), (∀ v ∈ vs, ∀ impl, v.payload = some impl → Strict impl) → RawStrict (enumRaw ident vs)) ∧
    (∀ (raw : Raw σ τ α) emb t info, RawStrict raw →
      Action.NoSwallow (fun r => ∀ v', r ≠ .ok (v', .ok ())) (heardElem emb (raw.element t info))) ∧
    (∀ D : Deser σ β, DeserNoSwallow D → Strict (deOne D) ∧ Strict (deOpt D) ∧ Strict (deVec D)) ∧
    (∀ (raw : Raw σ τ α) emb proj, DeserNoSwallow (deserVia raw emb proj)) ∧
    ∀ parse, DeserNoSwallow (deText parse : Deser σ β) :=
  ⟨fun _ he hr => structRaw_strict he hr, fun _ _ he => enumRaw_strict he _, fun _ _ t info h => heardElem_noSwallow h t info,
    fun _ h => ⟨deOne_strict h, deOpt_strict h, deVec_strict h⟩, fun raw emb proj => deserVia_noSwallow raw emb proj, deText_noSwallow⟩

/-- The values of an `Option` type, and of a `Vec` type. -/
def optOf : Val → Option (Option Val)
  | .opt o => some o
  | _ => none

/-- The same for `Vec`. -/
def vecOf : Val → Option (List Val)
  | .vec l => some l
  | _ => none

/-- C76: the implementations of Part II for text types, `T`, `Option<T>` and `Vec<T>` are these, with all their errors. -/
theorem C76_agrees (env : Env) :
    (∀ ty, (slotImpl env ⟨.one, ty⟩) = deOne fun _ => deserTy env ty) ∧
    (∀ ty, (slotImpl env ⟨.opt, ty⟩).init = ((deOpt fun _ => deserTy env ty).into Val.opt optOf).init ∧
      (∀ o, (slotImpl env ⟨.opt, ty⟩).update (.opt o) = ((deOpt fun _ => deserTy env ty).into Val.opt optOf).update (.opt o)) ∧
      (slotImpl env ⟨.opt, ty⟩).missing = ((deOpt fun _ => deserTy env ty).into Val.opt optOf).missing) ∧
    (∀ ty, (slotImpl env ⟨.many, ty⟩).init = ((deVec fun _ => deserTy env ty).into Val.vec vecOf).init ∧
      (∀ l, (slotImpl env ⟨.many, ty⟩).update (.vec l) = ((deVec fun _ => deserTy env ty).into Val.vec vecOf).update (.vec l)) ∧
      (slotImpl env ⟨.many, ty⟩).missing = ((deVec fun _ => deserTy env ty).into Val.vec vecOf).missing) ∧
    ∀ t : TextTy, ∀ parse : String → Ret DErr TVal, (∀ s, parse s = match t.parse s with
        | .ok v => .ok v
        | .err e => .err (.text e)
        | .fault _ => .panic) →
      attrImpl false t = (deAttr parse).into Val.text ∧ attrImpl true t = (deAttrOpt parse).into (fun o => .opt (o.map .text)) ∧
      ∀ info, (deserTy env (.text t)).map ret = (deText parse info).map fun r =>
        match ret r with
        | .ok v => .ok (.text v)
        | .err e => .err e
        | .panic => .panic := by
  refine ⟨fun ty => ?_, fun ty => ⟨?_, fun o => ?_, rfl⟩, fun ty => ⟨?_, fun l => ?_, rfl⟩, fun t parse hp => ⟨?_, ?_, fun info => ?_⟩⟩
  · unfold slotImpl deOne
    congr
    funext info
    simp only [slotInit, map_map]
    congr
    funext r
    rcases r with f | (e | v) <;> rfl
  · funext info
    simp only [slotImpl, deOpt, FieldImpl.into, slotInit, map_map]
    congr
    funext r
    rcases r with f | (e | v) <;> rfl
  · funext info
    rfl
  · funext info
    simp only [slotImpl, deVec, FieldImpl.into, slotInit, map_map]
    congr
    funext r
    rcases r with f | (e | v) <;> rfl
  · funext info
    simp only [slotImpl, deVec, FieldImpl.into, slotUpdate, vecOf, map_map]
    congr
    funext r
    rcases r with f | (e | v) <;> rfl
  · unfold attrImpl deAttr AttrImpl.into
    congr
    funext s
    simp only [attrInit, hp s]
    cases t.parse s <;> rfl
  · unfold attrImpl deAttrOpt AttrImpl.into
    congr
    funext s
    simp only [attrInit, hp s]
    cases t.parse s <;> rfl
  · simp only [deserTy, deText, Action.map]
    congr
    funext r
    rcases r with e | s
    · rfl
    · simp only [hp s]
      cases t.parse s <;> rfl

/-! ### Examples -/

namespace ExOR

theorem countD_noSwallow : DeserNoSwallow countD := by
  intro info sub e a h
  simp [countD] at h

theorem V_noSwallow : NoSwallow V := by
  intro s info
  cases s with
  | count n => exact trivial
  | cells t =>
    refine C76_strict (β := Nat).2.2.1 (structRaw fields) .cells t info (C76_strict (β := Nat).1 fields ?_ ?_)
    · intro f hf impl hk
      simp only [fields, List.mem_cons, List.not_mem_nil, or_false] at hf
      rcases hf with rfl | rfl | rfl | rfl
      · cases hk; exact into_strict (deVec_strict countD_noSwallow) _ _
      · cases hk
      · cases hk
      · cases hk; exact into_strict (deOpt_strict (deText_noSwallow _)) _ _
    · intro f hf raw hk
      simp only [fields, List.mem_cons, List.not_mem_nil, or_false] at hf
      rcases hf with rfl | rfl | rfl | rfl
      · cases hk
      · cases hk
      · cases hk
        intro t info a h
        cases h
        exact trivial
      · cases hk

open Ex in
/-- `<r a="xyz"><note>1</note><note>2</note></r>` -/
def twice : Doc :=
  { startPos := p0, prolog := [],
    root := Elem.mk (q "r") [{ name := q "a", value := "xyz" }] [] (p 1)
      (.elem (q "note") [] [] (p 2) (.chars "1" false (p 3) .nil) (p 4)
        (.elem (q "note") [] [] (p 5) (.chars "2" false (p 6) .nil) (p 7) .nil)) (p 8),
    epilog := [], eofPos := p 9, epilogOk := by simp }

/-- Of two notes nothing is made. -/
example : ¬ ∃ vs, StructRead V [] fields twice.root vs := by
  rintro ⟨vs, h⟩
  have := (C76_struct true V (.inr V_noSwallow) fields distinct .cells proj includes (fun _ => rfl) twice vs).mpr h
  have h' : ∃ e, read true V (deserVia (structRaw fields) .cells proj) twice.input = .ok (.error e) := ⟨_, rfl⟩
  obtain ⟨e, h'⟩ := h'
  rw [h'] at this
  cases this

/-- Visitors of an enum with a hand-written payload type. -/
inductive St' where
  | enm (e : OEnum (List Nat))
  | count (n : Nat)

def countD' : Deser St' Nat := fun _ => .readTo (.count 0) fun s r =>
  match r, s with
  | .error e, _ => .ok (.error e)
  | .ok _, .count n => .ok (.ok n)
  | .ok _, _ => .error .panic

/-- `Counts(Vec<Count>)`, `Nothing`. -/
def variants' : List (OVariant St' (List Nat)) := [⟨⟨none, "c"⟩, some (deVec countD')⟩, ⟨⟨none, "nothing"⟩, none⟩]

def V' : Visitor St' where
  onAttr s n v :=
    match s with
    | .enm t => heardText .enm ((enumRaw "E" variants').attr t n v)
    | .count n => .ok (.count n, .ok ())
  onChars s v pos :=
    match s with
    | .enm t => heardText .enm ((enumRaw "E" variants').characters t v pos)
    | .count n => .ok (.count n, .ok ())
  onElem s info :=
    match s with
    | .enm t => heardElem .enm ((enumRaw "E" variants').element t info)
    | .count n => .done (.ok (.count (n + 1), .ok ()))

def proj' : St' → Option (OEnum (List Nat))
  | .enm t => some t
  | _ => none

theorem includes' : Includes V' (enumRaw "E" variants') .enm where
  attr _ _ _ := rfl
  chars _ _ _ := rfl
  elem _ _ := rfl

theorem searchable' : Searchable variants' where
  distinct i j v w hi hj hn := by
    match i, j with
    | 0, 0 => rfl
    | 1, 1 => rfl
    | 0, 1 | 1, 0 =>
      simp only [variants', List.getElem?_cons_zero, List.getElem?_cons_succ, Option.some.injEq] at hi hj
      subst hi hj
      simp [DName.expanded] at hn
    | i + 2, _ => simp [variants'] at hi
    | _, j + 2 => simp [variants'] at hj
  noneFirst := by
    intro d hd e he h1 h2
    simp only [variants', List.map_cons, List.map_nil, List.mem_cons, List.not_mem_nil, or_false] at he
    rcases he with rfl | rfl <;> cases h2

example : EnumRead V' [] variants' doc.root (0, some [2, 0]) :=
  (C76_enum false V' (.inl rfl) "E" variants' searchable' .enm proj' includes' (fun _ => rfl) doc _).mp rfl

/-- Children of two variants. -/
example (d : Doc) (h : (d.root.children.childrenNamed ⟨"", "c"⟩) ≠ []) (h' : (d.root.children.childrenNamed ⟨"", "nothing"⟩) ≠ []) :
    ∀ r, read false V' (deserVia (enumRaw "E" variants') .enm proj') d.input ≠ .ok (.ok r) := by
  intro r hr
  obtain ⟨v, hv, -, h1, -⟩ := (C76_enum false V' (.inl rfl) "E" variants' searchable' .enm proj' includes' (fun _ => rfl) d r).mp hr
  have ha := h1 _ (List.mem_cons_self ..) h
  have hb := h1 _ (List.mem_cons_of_mem _ (List.mem_cons_self ..)) h'
  rw [← hb] at ha
  simp [DName.expanded] at ha

end ExOR

theorem run_into {τ' β : Type} (raw : Raw σ τ' β) (it : τ' → τ) (gt : τ → Option τ') (inj : β → α) (get : α → Option β) (hgt : ∀ t, gt (it t) = some t)
    (h : List (Spec.Open.Call σ)) (t : τ') : Spec.Open.run (raw.into it gt inj get) h (it t) = (Spec.Open.run raw h t).map it := by
  induction h generalizing t with
  | nil => rfl
  | cons c cs ih =>
    have hs : Spec.Open.step (raw.into it gt inj get) (it t) c = (Spec.Open.step raw t c).map it := by
      cases c with
      | attr n v =>
        simp only [Spec.Open.step, Raw.into, hgt]
        rcases raw.attr t n v with f | ⟨t', r⟩ <;> rfl
      | chars s pos =>
        simp only [Spec.Open.step, Raw.into, hgt]
        rcases raw.characters t s pos with f | ⟨t', r⟩ <;> rfl
      | elem info s =>
        simp only [Spec.Open.step, Raw.into, hgt]
        rcases raw.element t info with f | (t' | a)
        · rfl
        · rfl
        · have hg : Spec.Open.give s (a.map (stateInto it)) = stateInto it (Spec.Open.give s a) := by cases a <;> rfl
          simp only [hg]
          rcases Spec.Open.give s a with f | ⟨t', r⟩ <;> rfl
    simp only [Spec.Open.run, hs]
    rcases Spec.Open.step raw t c with f | t'
    · rfl
    · exact ih t'

/-- C76: a flattened type keeps the contract of `RawDeserializeVisitor` (C49) if and only if it does so as one of the flattened types of a struct: nothing undefined
that it does is hidden. -/
theorem C76_into_sound {τ' β : Type} (raw : Raw σ τ' β) (it : τ' → τ) (gt : τ → Option τ') (inj : β → α) (get : α → Option β) (hgt : ∀ t, gt (it t) = some t)
    (hg : ∀ b, get (inj b) = some b) : Spec.Open.Sound (raw.into it gt inj get) ↔ Spec.Open.Sound raw := by
  constructor
  · intro h hist
    obtain ⟨t, h1, h2⟩ := h hist
    rw [show (raw.into it gt inj get).new = it raw.new from rfl, run_into raw it gt inj get hgt] at h1
    revert h1
    rcases Spec.Open.run raw hist raw.new with f | t' <;> intro h1 <;> cases h1
    refine ⟨t', rfl, fun d => ?_⟩
    have hd : ∃ d', (raw.into it gt inj get).finalize (it t') d' = stateInto it (raw.finalize t' d) := by
      rcases d with _ | (b | e | _)
      · exact ⟨none, by simp [Raw.into, hgt]⟩
      · exact ⟨some (.ok (inj b)), by simp [Raw.into, hgt, hg]⟩
      · exact e.elim
      · exact ⟨some .panic, by simp [Raw.into, hgt]⟩
    obtain ⟨d', hd'⟩ := hd
    obtain ⟨t1, res, h3, h4⟩ := h2 d'
    rw [hd'] at h3
    revert h3
    rcases hf : raw.finalize t' d with f | ⟨t2, r2⟩ <;> intro h3 <;> cases h3
    refine ⟨t2, res, rfl, fun hr => ?_⟩
    obtain ⟨v, hv⟩ := h4 hr
    simp only [Raw.into, hgt, Option.bind_some] at hv
    rcases ho : raw.out t2 with _ | b
    · rw [ho] at hv; cases hv
    · exact ⟨b, rfl⟩
  · intro h hist
    obtain ⟨t, h1, h2⟩ := h hist
    refine ⟨it t, ?_, fun d => ?_⟩
    · rw [show (raw.into it gt inj get).new = it raw.new from rfl, run_into raw it gt inj get hgt, h1]
      rfl
    · have hd : ∃ d', (raw.into it gt inj get).finalize (it t) d = stateInto it (raw.finalize t d') := by
        simp only [Raw.into, hgt]
        exact ⟨_, rfl⟩
      obtain ⟨d', hd'⟩ := hd
      obtain ⟨t1, res, h3, h4⟩ := h2 d'
      refine ⟨it t1, res, by rw [hd', h3]; rfl, fun hr => ?_⟩
      obtain ⟨v, hv⟩ := h4 hr
      exact ⟨inj v, by simp [Raw.into, hgt, hv]⟩

/-- The struct of the example, as one of two flattened types. -/
example : Spec.Open.Sound ((enumRaw "E" ExOR.variants').into (Sum.inl (β := Nat)) (fun t => t.getLeft?) Sum.inl (fun a : _ ⊕ Nat => a.getLeft?)) :=
  (C76_into_sound _ Sum.inl (fun t => t.getLeft?) Sum.inl (fun a => a.getLeft?) (fun _ => rfl) (fun _ => rfl)).mpr (enumRaw_sound _ _)

/-- The fields `c` and `note` of the example. -/
example (here : List StackElem) (x : Elem) (v : ExOR.Vl) :=
  C76_vec (τ := Nat) ExOR.V ExOR.countD .counts ExOR.getCounts (fun _ => rfl) here x ⟨none, "c"⟩ v
example (here : List StackElem) (x : Elem) (v : ExOR.Vl) :=
  C76_opt (τ := Nat) ExOR.V (deText fun s => .ok s) .note ExOR.getNote (fun _ => rfl) here x ⟨none, "note"⟩ v
example (here : List StackElem) (x : Elem) (v : ExOR.Vl) :=
  C76_one (τ := Nat) ExOR.V ExOR.countD .len (fun v => match v with | .len n => some n | _ => none) (fun _ => rfl) here x ⟨none, "c"⟩ v

end SX
