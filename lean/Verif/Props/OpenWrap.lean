import Verif.Proof.OpenWrap
import Verif.Proof.OpenWrapUnwind
import Verif.Props.OpenRead
import Verif.Props.OpenRound
import Verif.Props.OpenUnwind
import Verif.Props.Evolve

/-
C85: types and fields written by hand on top of other types.
-/
namespace SX
open Spec Open Spec.Open

variable {σ σ' τ τ' α α' β β' γ γ' : Type}

namespace ExWr
open Ex

/-- A type with a check: texts of at most three characters. -/
def short : String → Ret VErr String := fun s => if s.length ≤ 3 then .ok s else .err (.wrap (.user "too long"))

/-- A field that collects different values. -/
def set : Collector String (List String) where
  first _ v := .ok [v]
  refuse c _ := if c.length = 3 then some (.wrap (.user "full")) else none
  more c _ v := if v ∈ c then (c, .err (.wrap (.user "twice"))) else (v :: c, .ok ())
  none _ := .ok []

def text : Deser Unit String := deText fun s => .ok s

/-- Nothing is read with visitors. -/
def V : Visitor Unit where
  onAttr v _ _ := .ok (v, .ok ())
  onChars v _ _ := .ok (v, .ok ())
  onElem v _ := .done (.ok (v, .ok ()))

def elem (s : String) : Elem := Elem.mk (q "e") [] [] (p 2) (.chars s false (p 3) .nil) (p 4)

/-- `<r>` … `</r>` -/
def doc (s : String) : Doc :=
  { startPos := p0, prolog := [], root := Elem.mk (q "r") [] [] (p 1) (.chars s false (p 2) .nil) (p 3), epilog := [], eofPos := p 4, epilogOk := by simp }

end ExWr

/-! ## C85 -/

/-- C85: a type that makes its value of that of another type (`make` may refuse it, or panic) is read from a document exactly if the other type is and `make` takes the
value; the error is the other type's, or that of `make`, which is located where the other type has stopped reading: after the element, if it has read to its end. -/
theorem C85_document (dbg : Bool) (V : Visitor σ) (make : β → Ret VErr γ) (D : Deser σ β) (hd : dbg = false ∨ NoSwallow V ∧ DeserNoSwallow D) (d : Doc) :
    read dbg V (wrap make D) d.input = match deser V D [] d.root with
      | .error f => .error f
      | .ok (.error e, stop) => .ok (.error (placed stop.path stop.pos e))
      | .ok (.ok w, stop) =>
        match make w with
        | .ok v => .ok (.ok v)
        | .err e => .ok (.error (placed stop.path stop.pos e))
        | .panic => .error .panic := by
  have h : read dbg V (wrap make D) d.input = readDoc V (wrap make D) d := by
    rcases hd with rfl | ⟨hN, hD⟩
    · exact C10_reader_in_sync _ _ _
    · cases dbg with
      | false => exact C10_reader_in_sync _ _ _
      | true => exact C10_reader_in_sync_debug _ _ hN (wrap_noSwallow hD) _
  rw [h]
  unfold readDoc
  rw [deser_wrap]
  rcases deser V D [] d.root with f | ⟨(e | e) | w, stop⟩
  · rfl
  · rfl
  · rfl
  · simp only
    rcases make w with v | (e | e) | _ <;> rfl

/-- A text that is too long: the error is located at the end tag. -/
example : read true ExWr.V (wrap ExWr.short ExWr.text) (ExWr.doc "abc").input = .ok (.ok "abc") ∧
    read true ExWr.V (wrap ExWr.short ExWr.text) (ExWr.doc "abcd").input =
      .ok (.error { kind := .deserializer (.user "too long"), stack := [⟨Ex.q "r", Ex.p 1⟩], pos := Ex.p 3 }) := by
  have hN : NoSwallow ExWr.V := fun _ _ => trivial
  have hD : DeserNoSwallow ExWr.text := deText_noSwallow _
  rw [C85_document true ExWr.V _ _ (.inr ⟨hN, hD⟩), C85_document true ExWr.V _ _ (.inr ⟨hN, hD⟩)]
  exact ⟨rfl, rfl⟩

theorem runDeser_wrap (dbg : Bool) (V : Visitor σ) (make : β → Ret VErr γ) (D : Deser σ β) (fuel : Nat) (er : ElemReader) (s : RState) :
    runDeser dbg V (wrap make D) fuel er s = match runDeser dbg V D fuel er s with
      | .error f => .error f
      | .ok (.error e, s) => .ok (.error e, s)
      | .ok (.ok w, s) =>
        match make w with
        | .ok v => .ok (.ok v, s)
        | .err e => .ok (.error e, s)
        | .panic => .error .panic := by
  unfold runDeser
  cases s.stack[er.stackPos]? with
  | none => rfl
  | some elem =>
    simp only [wrap]
    cases D { name := elem.name, ns := er.ns, depth := er.stackPos + 1 } with
    | done r =>
      rcases r with f | (e | w)
      · rfl
      · rfl
      · simp only [Action.map]
        rcases make w with _ | _ | _ <;> rfl
    | readString k =>
      simp only [Action.map]
      rcases readString dbg er fuel "" s with f | ⟨r, s⟩
      · rfl
      · dsimp only
        rcases k r with f | (e | w)
        · rfl
        · rfl
        · dsimp only
          rcases make w with _ | _ | _ <;> rfl
    | readTo sub k =>
      simp only [Action.map]
      rcases readTo dbg V fuel er sub s with f | ⟨sub, r, s⟩
      · rfl
      · dsimp only
        rcases k sub r with f | (e | w)
        · rfl
        · rfl
        · dsimp only
          rcases make w with _ | _ | _ <;> rfl

/-- C85: from any input, well-formed or not, it is read to the values that `make` takes of those the other type is read to; and if `make` takes all values the errors
are the same too: a newtype makes no difference. -/
theorem C85_input (dbg : Bool) (V : Visitor σ) (make : β → Ret VErr γ) (D : Deser σ β) (i : Input) :
    (∀ v, read dbg V (wrap make D) i = .ok (.ok v) ↔ ∃ w, read dbg V D i = .ok (.ok w) ∧ make w = .ok v) ∧
    ((∀ w, ∃ v, make w = .ok v) → (∀ e, read dbg V (wrap make D) i = .ok (.error e) ↔ read dbg V D i = .ok (.error e)) ∧
      ∀ f, read dbg V (wrap make D) i = .error f ↔ read dbg V D i = .error f) := by
  simp only [read]
  rcases root dbg i.start with f | ⟨e | er, s⟩
  · simp
  · simp
  · simp only [runDeser_wrap]
    rcases runDeser dbg V D (s.inner.items.length + 1) er s with f | ⟨e | w, s⟩
    · simp
    · simp
    · constructor
      · intro v
        rcases hm : make w with v' | e | _
        · rcases he : endDoc dbg s with f | (e | u)
          · simp [he, hm]
          · simp [he, hm]
          · simp [he, hm]
        · rcases he : endDoc dbg s with f | (e' | u)
          · simp [he, hm]
          · simp [he, hm]
          · simp [he, hm]
        · rcases he : endDoc dbg s with f | (e' | u)
          · simp [he, hm]
          · simp [he, hm]
          · simp [he, hm]
      · intro h
        obtain ⟨v, hv⟩ := h w
        rcases he : endDoc dbg s with f | (e | u)
        · simp [he, hv]
        · simp [he, hv]
        · simp [he, hv]

example (v : String) : read true ExWr.V (wrap ExWr.short ExWr.text) (ExWr.doc "abc").input = .ok (.ok v) ↔
    ∃ w, read true ExWr.V ExWr.text (ExWr.doc "abc").input = .ok (.ok w) ∧ ExWr.short w = .ok v := (C85_input ..).1 v

/-- C85: the same within documents, so that such types can be types of fields. -/
theorem C85_reads (V : Visitor σ) (make : β → Ret VErr γ) (D : Deser σ β) (path : List StackElem) (x : Elem) :
    (∀ v, Spec.Open.Reads V (wrap make D) path x v ↔ ∃ w, Spec.Open.Reads V D path x w ∧ make w = .ok v) ∧
    ∀ e stop, deser V (wrap make D) path x = .ok (.error e, stop) ↔
      deser V D path x = .ok (.error e, stop) ∨ ∃ w, deser V D path x = .ok (.ok w, stop) ∧ make w = .err e :=
  ⟨reads_wrap V make D path x, fails_wrap V make D path x⟩

example : Spec.Open.Reads ExWr.V (wrap ExWr.short ExWr.text) [] (ExWr.elem "abc") "abc" ∧
    ¬ ∃ v, Spec.Open.Reads ExWr.V (wrap ExWr.short ExWr.text) [] (ExWr.elem "abcd") v := by
  refine ⟨((C85_reads ..).1 _).mpr ⟨"abc", ⟨_, rfl⟩, rfl⟩, ?_⟩
  rintro ⟨v, h⟩
  obtain ⟨w, ⟨s, hw⟩, hm⟩ := ((C85_reads ..).1 _).mp h
  cases hw
  cases hm

/-- C85: it passes on the errors of what it reads, if the other type does. -/
theorem C85_passes_on (make : β → Ret VErr γ) (D : Deser σ β) :
    (DeserNoSwallow D → DeserNoSwallow (wrap make D)) ∧ (DeserPassesOn D → DeserPassesOn (wrap make D)) ∧
    ∀ C : Collector β γ, DeserNoSwallow D → Strict (deCollect C D) :=
  ⟨wrap_noSwallow, wrap_passesOn, fun _ => deCollect_strict⟩

example : DeserNoSwallow (wrap ExWr.short ExWr.text) ∧ Strict (deCollect ExWr.set ExWr.text) :=
  ⟨(C85_passes_on _ _).1 (deText_noSwallow _), (C85_passes_on (fun _ => .panic : String → Ret VErr (List String)) ExWr.text).2.2 _ (deText_noSwallow _)⟩

/-- C85: fields of type `T`, `Option<T>` and `Vec<T>` are three fields with collectors. -/
theorem C85_std (D : Deser σ β) : deOne D = deCollect justOne D ∧ deOpt D = deCollect atMostOne D ∧ deVec D = deCollect inOrder D := by
  refine ⟨?_, rfl, rfl⟩
  simp only [deOne, deCollect, justOne]
  congr 1
  funext info
  congr 1
  funext r
  rcases r with f | (e | v) <;> rfl

theorem childrenNamed_name (n : EName) (F : Forest) : ∀ x ∈ F.childrenNamed n, x.name.expanded = n := by
  intro x hx
  unfold Forest.childrenNamed at hx
  simpa using (List.mem_filter.mp hx).2

/-- C85: a field of a type written by hand holds what its collector makes of the values which the other type is read to from the children with the field's name, in
order; if there are none, its default or what its type makes of a missing field. -/
theorem C85_field (V : Visitor σ) (C : Collector β γ) (D : Deser σ β) (inj : γ → α) (get : α → Option γ) (hg : ∀ b, get (inj b) = some b)
    (here : List StackElem) (x : Elem) (nm : DName) (df : Option (Ret Empty α)) (v : α) :
    Gets V here x (⟨nm, .element ((deCollect C D).into inj get), df⟩ : OField σ τ α) v ↔
      (∃ ws c, Rowwise (Spec.Open.Reads V D here) (x.children.childrenNamed nm.expanded) ws ∧ gather C nm.expanded none ws = some (some c) ∧ v = inj c) ∨
      x.children.childrenNamed nm.expanded = [] ∧ absent (⟨nm, .element ((deCollect C D).into inj get), df⟩ : OField σ τ α) = .ok v := by
  rw [gets_element, show (none : Option α) = (none : Option γ).map inj from rfl]
  simp only [fill_into V here _ inj get hg]
  constructor
  · rintro ⟨c, h, h'⟩
    obtain ⟨c, hc, rfl⟩ := Option.map_eq_some_iff.mp h
    obtain ⟨ws, hw, hgt⟩ := (fill_collect V C D here nm.expanded _ (childrenNamed_name _ _) none c).mp hc
    cases c with
    | some c =>
      rcases h' with h' | ⟨h', -⟩
      · cases h'
        exact .inl ⟨ws, c, hw, hgt, rfl⟩
      · cases h'
    | none =>
      obtain ⟨-, rfl⟩ := gather_none hgt
      rcases h' with h' | ⟨-, h'⟩
      · cases h'
      · generalize x.children.childrenNamed nm.expanded = xs at hw
        cases hw
        exact .inr ⟨rfl, h'⟩
  · rintro (⟨ws, c, hw, hgt, rfl⟩ | ⟨he, h⟩)
    · exact ⟨some (inj c), by rw [(fill_collect V C D here nm.expanded _ (childrenNamed_name _ _) none _).mpr ⟨ws, hw, hgt⟩]; rfl, .inl rfl⟩
    · exact ⟨none, by rw [he]; rfl, .inr ⟨rfl, h⟩⟩

/-- Three different texts, the last one first; the same text twice is refused, and so is a fourth. -/
example : gather ExWr.set ⟨"", "e"⟩ none ["a", "b", "c"] = some (some ["c", "b", "a"]) ∧ gather ExWr.set ⟨"", "e"⟩ none ["a", "b", "a"] = none ∧
    gather ExWr.set ⟨"", "e"⟩ none ["a", "b", "c", "d"] = none ∧ gather ExWr.set ⟨"", "e"⟩ none [] = some none := ⟨rfl, rfl, rfl, rfl⟩

example : Gets ExWr.V [] (Elem.mk (Ex.q "r") [] [] (Ex.p 1)
      (.elem (Ex.q "e") [] [] (Ex.p 2) (.chars "a" false (Ex.p 3) .nil) (Ex.p 4)
        (.elem (Ex.q "e") [] [] (Ex.p 5) (.chars "b" false (Ex.p 6) .nil) (Ex.p 7) .nil)) (Ex.p 9))
    (⟨⟨none, "e"⟩, .element ((deCollect ExWr.set ExWr.text).into id some), none⟩ : OField Unit Unit (List String)) ["b", "a"] :=
  (C85_field ExWr.V ExWr.set ExWr.text id some (fun _ => rfl) [] _ _ none _).mpr
    (.inl ⟨["a", "b"], ["b", "a"], .cons ⟨_, rfl⟩ (.cons ⟨_, rfl⟩ .nil), rfl, rfl⟩)

/-- C85: the same for payloads of variants (see `EnumRead`). -/
theorem C85_payload (V : Visitor σ) (C : Collector β γ) (D : Deser σ β) (inj : γ → α) (get : α → Option γ) (hg : ∀ b, get (inj b) = some b)
    (here : List StackElem) (F : Forest) (n : EName) (v : α) :
    fill V here ((deCollect C D).into inj get) none (F.childrenNamed n) = some (some v) ↔
      ∃ ws c, Rowwise (Spec.Open.Reads V D here) (F.childrenNamed n) ws ∧ gather C n none ws = some (some c) ∧ v = inj c := by
  rw [show (none : Option α) = (none : Option γ).map inj from rfl, fill_into V here _ inj get hg]
  constructor
  · intro h
    obtain ⟨c, hc, h⟩ := Option.map_eq_some_iff.mp h
    obtain ⟨c, rfl, rfl⟩ := Option.map_eq_some_iff.mp h
    obtain ⟨ws, hw, hgt⟩ := (fill_collect V C D here n _ (childrenNamed_name _ _) none _).mp hc
    exact ⟨ws, c, hw, hgt, rfl⟩
  · rintro ⟨ws, c, hw, hgt, rfl⟩
    rw [(fill_collect V C D here n _ (childrenNamed_name _ _) none _).mpr ⟨ws, hw, hgt⟩]
    rfl

/-- C85: the errors of such a field (for `RefusesElem` of C79): those of the other type, or of the collector where the other type has stopped; a child that is refused without
being read is refused where it starts.  The field then keeps what the collector left. -/
theorem C85_refused (V : Visitor σ) (C : Collector β γ) (D : Deser σ β) (here : List StackElem) (y : Elem) (e : VErr) (stop : Stop) :
    (perform V here y ((deCollect C D).init (infoOf here y)) = .ok (.err e, stop) ↔
      deser V D here y = .ok (.error e, stop) ∨ ∃ w, deser V D here y = .ok (.ok w, stop) ∧ C.first y.name.expanded w = .err e) ∧
    ∀ c c', perform V here y ((deCollect C D).update c (infoOf here y)) = .ok ((c', .err e), stop) ↔
      C.refuse c y.name.expanded = some e ∧ c' = c ∧ stop = { path := here ++ [{ name := y.name, pos := y.pos }], pos := y.pos } ∨
      C.refuse c y.name.expanded = none ∧
        (deser V D here y = .ok (.error e, stop) ∧ c' = c ∨ ∃ w, deser V D here y = .ok (.ok w, stop) ∧ C.more c y.name.expanded w = (c', .err e)) :=
  ⟨perform_first V C D here y e stop, fun c c' => perform_more V C D here y c c' e stop⟩

/-- A text that is there already is read to its end, a fourth text is not read. -/
example : perform ExWr.V [] (ExWr.elem "a") ((deCollect ExWr.set ExWr.text).update ["b", "a"] (infoOf [] (ExWr.elem "a"))) =
      .ok ((["b", "a"], .err (.wrap (.user "twice"))), { path := [⟨Ex.q "e", Ex.p 2⟩], pos := Ex.p 4 }) ∧
    perform ExWr.V [] (ExWr.elem "d") ((deCollect ExWr.set ExWr.text).update ["c", "b", "a"] (infoOf [] (ExWr.elem "d"))) =
      .ok ((["c", "b", "a"], .err (.wrap (.user "full"))), { path := [⟨Ex.q "e", Ex.p 2⟩], pos := Ex.p 2 }) :=
  ⟨((C85_refused ExWr.V ExWr.set ExWr.text [] (ExWr.elem "a") _ _).2 _ _).mpr (.inr ⟨rfl, .inr ⟨"a", rfl, rfl⟩⟩),
    ((C85_refused ExWr.V ExWr.set ExWr.text [] (ExWr.elem "d") _ _).2 _ _).mpr (.inl ⟨rfl, rfl, rfl⟩)⟩

/-- C85: what the collector guarantees of its values is so at every moment: after any calls of the visitor's methods, whatever has been supplied for children and however they
ended, the memory of the field holds nothing else. -/
theorem C85_invariant (C : Collector β γ) (P : γ → Prop) (hP : Keeps C P) (D : Deser σ β) (nm : DName) (df : Option (Ret Empty γ)) (h : List (Call σ)) (v : γ)
    (hv : found (⟨nm, .element (deCollect C D), df⟩ : OField σ τ γ) h = some v) : P v :=
  afterElems_keeps hP D none (fun _ h => by cases h) _ v hv

example : Keeps ExWr.set fun l => l.Nodup where
  first _ v c h := by cases h; simp
  more c _ v h := by
    simp only [ExWr.set]
    split
    · exact h
    · exact List.nodup_cons.mpr ⟨‹_›, h⟩

/-- C85: such a type reads back what it wrote, if it writes what the other type writes for a value of which `make` makes it. -/
theorem C85_round_trip (V : Visitor σ) (make : β → Ret VErr γ) (D : Deser σ β) (name : EName) (w : Ser) (b : β) (v : γ) (h : ReadsAs V D name w b) (hm : make b = .ok v) :
    ReadsAs V (wrap make D) name w v := by
  obtain ⟨as, g, h1, h2, h3⟩ := h
  exact ⟨as, g, h1, h2, fun path x hn hw => (reads_wrap V make D path x v).mpr ⟨b, h3 path x hn hw, hm⟩⟩

example : ReadsAs ExWr.V (wrap ExWr.short ExWr.text) ⟨"", "e"⟩ (textSer (.ok "abc")) "abc" :=
  C85_round_trip _ _ _ _ _ "abc" _ (C77_text ExWr.V (fun s => .ok s) "abc" "abc" rfl _) rfl

/-- C85: a field of such a type reads back what it wrote, if it writes an element for each of some values which the collector makes the field's value of. -/
theorem C85_field_round_trip (V : Visitor σ) (C : Collector β γ) (D : Deser σ β) (inj : γ → α) (get : α → Option γ) (hg : ∀ b, get (inj b) = some b) (nm : DName)
    (df : Option (Ret Empty α)) (ws : List Ser) (vs : List β) (c : γ) (h : Rowwise (ReadsAs V D nm.expanded) ws vs)
    (hc : gather C nm.expanded none vs = some (some c) ∨
      vs = [] ∧ absent (⟨nm, .element ((deCollect C D).into inj get), df⟩ : OField σ τ α) = .ok (inj c)) (fields : List (OField σ τ α)) :
    FieldBack V fields ⟨⟨nm, .element ((deCollect C D).into inj get), df⟩, .element (fieldVec ws), inj c⟩ := by
  obtain ⟨g, h1, h2, h3⟩ := vec_back h
  refine ⟨g, h1, h2, fun here F hF => ?_⟩
  have hr := h3 here F hF
  have hn : ∀ x ∈ F.children, x.name.expanded = nm.expanded := only_names hF h2
  rw [show (none : Option α) = (none : Option γ).map inj from rfl]
  simp only [fill_into V here _ inj get hg]
  rcases hc with hc | ⟨rfl, ha⟩
  · exact ⟨some (inj c), by rw [(fill_collect V C D here nm.expanded _ hn none _).mpr ⟨vs, hr, hc⟩]; rfl, .inl rfl⟩
  · generalize F.children = xs at hr
    cases hr
    exact ⟨none, rfl, .inr ⟨rfl, ha⟩⟩

/-- A set of two texts, of which the last is first. -/
example : FieldBack ExWr.V ([] : List (OField Unit Unit (List String)))
    ⟨⟨⟨none, "e"⟩, .element ((deCollect ExWr.set ExWr.text).into id some), none⟩, .element (fieldVec [textSer (.ok "a"), textSer (.ok "b")]), ["b", "a"]⟩ :=
  C85_field_round_trip ExWr.V ExWr.set ExWr.text id some (fun _ => rfl) ⟨none, "e"⟩ none _ ["a", "b"] ["b", "a"]
    (.cons (C77_text _ _ "a" _ rfl _) (.cons (C77_text _ _ "b" _ rfl _) .nil)) (.inl rfl) []

/-- C85: types can be put on top of others, removed and changed (C82), if all values that the old one takes are taken by the new one. -/
theorem C85_upgrade (V : Visitor σ) (V' : Visitor σ') (D : Deser σ β) (D' : Deser σ' β') (ok : Elem → Prop) (R : β → β' → Prop) (h : Upgrades V D V' D' ok R)
    (make : β → Ret VErr γ) (make' : β' → Ret VErr γ') (S : γ → γ' → Prop)
    (hm : ∀ w w' v, R w w' → make w = .ok v → ∃ v', make' w' = .ok v' ∧ S v v') : Upgrades V (wrap make D) V' (wrap make' D') ok S := by
  intro path x v hx hr
  obtain ⟨w, hw, hv⟩ := (reads_wrap V make D path x v).mp hr
  obtain ⟨w', hw', hR⟩ := h path x w hx hw
  obtain ⟨v', hv', hS⟩ := hm w w' v hR hv
  exact ⟨v', (reads_wrap V' make' D' path x v').mpr ⟨w', hw', hv'⟩, hS⟩

/-- The check is dropped: all that was read is. -/
example : Upgrades ExWr.V (wrap ExWr.short ExWr.text) ExWr.V (wrap (fun s => .ok s) ExWr.text) (fun _ => True) Eq :=
  C85_upgrade _ _ _ _ _ Eq (fun _ _ v _ h => ⟨v, h, rfl⟩) _ _ _ fun w w' v h hv => by
    subst h
    refine ⟨w, rfl, ?_⟩
    unfold ExWr.short at hv
    split at hv <;> cases hv
    rfl

/-- C85: the same for fields. -/
theorem C85_field_upgrade (V : Visitor σ) (V' : Visitor σ') (D : Deser σ β) (D' : Deser σ' β') (C : Collector β γ) (C' : Collector β' γ')
    (inj : γ → α) (get : α → Option γ) (hg : ∀ b, get (inj b) = some b) (inj' : γ' → α') (get' : α' → Option γ') (hg' : ∀ b, get' (inj' b) = some b)
    (nm nm' : DName) (hn : nm'.expanded = nm.expanded) (df : Option (Ret Empty α)) (df' : Option (Ret Empty α'))
    (ok okc : Elem → Prop) (hok : ∀ x, ok x → ∀ y ∈ x.children.childrenNamed nm.expanded, okc y) (R : β → β' → Prop) (hD : Upgrades V D V' D' okc R)
    (S : α → α' → Prop)
    (hA : ∀ v, absent (⟨nm, .element ((deCollect C D).into inj get), df⟩ : OField σ τ α) = .ok v →
      ∃ v', absent (⟨nm', .element ((deCollect C' D').into inj' get'), df'⟩ : OField σ' τ' α') = .ok v' ∧ S v v')
    (hC : ∀ ws ws' c, Rowwise R ws ws' → gather C nm.expanded none ws = some (some c) → ∃ c', gather C' nm.expanded none ws' = some (some c') ∧ S (inj c) (inj' c')) :
    FieldUpgrades V (⟨nm, .element ((deCollect C D).into inj get), df⟩ : OField σ τ α) V'
      (⟨nm', .element ((deCollect C' D').into inj' get'), df'⟩ : OField σ' τ' α') ok S := by
  intro here x v hx h
  rcases (C85_field V C D inj get hg here x nm df v).mp h with ⟨ws, c, hw, hc, rfl⟩ | ⟨he, ha⟩
  · have : ∃ ws', Rowwise (Spec.Open.Reads V' D' here) (x.children.childrenNamed nm.expanded) ws' ∧ Rowwise R ws ws' := by
      have hk := hok x hx
      clear hc
      generalize x.children.childrenNamed nm.expanded = xs at hw hk
      induction hw with
      | nil => exact ⟨[], .nil, .nil⟩
      | cons h1 _ ih =>
        obtain ⟨w', h2, h3⟩ := hD here _ _ (hk _ (List.mem_cons_self ..)) h1
        obtain ⟨ws', h4, h5⟩ := ih fun y hy => hk y (List.mem_cons_of_mem _ hy)
        exact ⟨w' :: ws', .cons h2 h4, .cons h3 h5⟩
    obtain ⟨ws', hw', hR⟩ := this
    obtain ⟨c', hc', hS⟩ := hC ws ws' c hR hc
    exact ⟨inj' c', (C85_field V' C' D' inj' get' hg' here x nm' df' _).mpr (.inl ⟨ws', c', by rw [hn]; exact hw', by rw [hn]; exact hc', rfl⟩), hS⟩
  · obtain ⟨v', hv', hS⟩ := hA v ha
    exact ⟨v', (C85_field V' C' D' inj' get' hg' here x nm' df' _).mpr (.inr ⟨by rw [hn]; exact he, hv'⟩), hS⟩

/-- A set instead of a list, in documents where the field has at most one child. -/
example : FieldUpgrades ExWr.V (⟨⟨none, "e"⟩, .element ((deCollect justOne ExWr.text).into (fun s => [s]) List.head?), none⟩ : OField Unit Unit (List String)) ExWr.V
    (⟨⟨none, "e"⟩, .element ((deCollect ExWr.set ExWr.text).into id some), none⟩ : OField Unit Unit (List String)) (fun _ => True) Eq :=
  C85_field_upgrade ExWr.V ExWr.V ExWr.text ExWr.text justOne ExWr.set (fun s => [s]) List.head? (fun _ => rfl) id some (fun _ => rfl) ⟨none, "e"⟩ ⟨none, "e"⟩ rfl none none _ (fun _ => True) (fun _ _ _ _ => trivial) Eq (fun _ _ v _ h => ⟨v, h, rfl⟩) _
    (fun v h => by cases h)
    (fun ws ws' c hR h => by
      cases hR with
      | nil => cases h
      | cons h1 h2 =>
        cases h2 with
        | nil =>
          subst h1
          cases h
          exact ⟨_, rfl, rfl⟩
        | cons _ _ => cases h)

/-- C85: such types and fields have no other memory to depend on (C80), panics have no other effect than errors (C81) and go where errors would go (C83), if that is so of the
other type, of `make` and of the collector. -/
theorem C85_panics :
    (∀ {κ : Type} {τ : κ → Type} (I : κ → OpenUnwind.States τ → Prop) (D D' : UnwindDe.PDeser (OpenUnwind.States τ) β),
      (∀ i, Spec.OpenUnwind.Same I (fun _ => True) (D i) (D' i)) →
      (∀ (make : β → Ret VErr γ) i, Spec.OpenUnwind.Same I (fun _ => True) (OpenUnwind.wrap make D i) (OpenUnwind.wrap make D' i)) ∧
      ∀ C : Collector β γ, Spec.OpenUnwind.AlikeImpl I (OpenUnwind.collect C D) (OpenUnwind.collect C D')) ∧
    (∀ (D D' : UnwindDe.PDeser σ β), (∀ i, Spec.Failures.LikeP Spec.Failures.Like (D i) (D' i)) →
      (∀ make make' : β → Ret VErr γ, (∀ v, Spec.Failures.Like (make v) (make' v)) →
        ∀ i, Spec.Failures.LikeP Spec.Failures.Like (OpenUnwind.wrap make D i) (OpenUnwind.wrap make' D' i)) ∧
      ∀ C C' : Collector β γ, LikeCollectors C C' → Spec.Failures.LikeImpl (OpenUnwind.collect C D) (OpenUnwind.collect C' D')) ∧
    ∀ [Spec.PanicAs.Mark] (D D' : UnwindDe.PDeser σ β), (∀ i, Spec.PanicAs.SimP Spec.PanicAs.Sim (D i) (D' i)) →
      (∀ make make' : β → Ret VErr γ, (∀ v, Spec.PanicAs.Sim (make v) (make' v)) →
        ∀ i, Spec.PanicAs.SimP Spec.PanicAs.Sim (OpenUnwind.wrap make D i) (OpenUnwind.wrap make' D' i)) ∧
      ∀ C C' : Collector β γ, SimCollectors C C' → Spec.PanicAs.SimImpl (OpenUnwind.collect C D) (OpenUnwind.collect C' D') :=
  ⟨fun _ _ _ h => ⟨fun _ i => OpenUnwind.wrap_same h i, fun _ => OpenUnwind.collect_alike h⟩,
    fun _ _ h => ⟨fun _ _ hm i => OpenUnwind.wrap_like hm h i, fun _ _ hC => OpenUnwind.collect_like hC h⟩,
    fun _ _ h => ⟨fun _ _ hm i => OpenUnwind.wrap_sim hm h i, fun _ _ hC => OpenUnwind.collect_sim hC h⟩⟩

/-- The same field where a text that is there already is a panic. -/
def ExWr.panicky : Collector String (List String) where
  first _ v := .ok [v]
  refuse c _ := if c.length = 3 then some (.wrap (.user "full")) else none
  more c _ v := if v ∈ c then (c, .panic) else (v :: c, .ok ())
  none _ := .ok []

example : LikeCollectors ExWr.panicky ExWr.set where
  first _ _ := rfl
  refuse _ _ := rfl
  more c _ v := by
    simp only [ExWr.panicky, ExWr.set]
    split <;> exact ⟨rfl, rfl⟩
  none _ := rfl

/-- The error in place of the panic. -/
example : letI : Spec.PanicAs.Mark := ⟨"twice"⟩; SimCollectors ExWr.panicky ExWr.set :=
  letI : Spec.PanicAs.Mark := ⟨"twice"⟩
  { first := fun _ _ => .ok _
    refuse := fun c n => ⟨rfl, fun e h => by
      simp only [ExWr.panicky] at h
      split at h
      · cases h
        intro h
        exact absurd (DErr.user.inj h) (by decide)
      · cases h⟩
    more := fun c _ v => by
      simp only [ExWr.panicky, ExWr.set]
      split
      · exact ⟨rfl, .panic _ rfl⟩
      · exact ⟨rfl, .ok _⟩
    none := fun _ => .ok _ }

/-- C85: where panics are told apart they are the same implementations. -/
theorem C85_agrees (D : UnwindDe.PDeser σ β) (make : β → Ret VErr γ) (C : Collector β γ) (i : ElemInfo) :
    Spec.UnwindDe.plainD (OpenUnwind.wrap make D) i = wrap make (Spec.UnwindDe.plainD D) i ∧
    OpenUnwind.unaware (OpenUnwind.unflag ((OpenUnwind.collect C D).init i)) = (deCollect C (Spec.UnwindDe.plainD D)).init i ∧
    (∀ c, OpenUnwind.unaware (OpenUnwind.unflag ((OpenUnwind.collect C D).update c i)) = (deCollect C (Spec.UnwindDe.plainD D)).update c i) ∧
    (OpenUnwind.collect C D).missing = (deCollect C (Spec.UnwindDe.plainD D) : FieldImpl σ γ).missing := by
  have hd : ∀ r : Ret VErr β, deserRet (Spec.UnwindDe.faultOf r) = r := by rintro (_ | _ | _) <;> rfl
  have hw : ∀ r : Ret VErr β, Spec.UnwindDe.faultOf (OpenUnwind.wrap.after make r) = (match Spec.UnwindDe.faultOf r with
    | .error f => .error f
    | .ok (.error e) => .ok (.error e)
    | .ok (.ok v) => conclude (make v) : Except Fault (Except VErr γ)) := by
    rintro (v | _ | _)
    · simp only [OpenUnwind.wrap.after, Spec.UnwindDe.faultOf]
      rcases make v with _ | _ | _ <;> rfl
    · rfl
    · rfl
  refine ⟨?_, ?_, fun c => ?_, rfl⟩
  · simp only [OpenUnwind.wrap, wrap, Spec.UnwindDe.plainD]
    cases D i with
    | done r => exact congrArg _ (hw r)
    | readString k => exact congrArg _ (funext fun x => hw _)
    | readTo sub k => exact congrArg _ (funext fun s => funext fun r => hw _)
  · simp only [OpenUnwind.collect, deCollect, Spec.UnwindDe.plainD]
    cases D i with
    | done r => simp only [OpenUnwind.flag, OpenUnwind.unflag, OpenUnwind.unaware, Action.map, hd]
    | readString k => simp only [OpenUnwind.flag, OpenUnwind.unflag, OpenUnwind.unaware, Action.map, hd]
    | readTo sub k =>
      simp only [OpenUnwind.flag, OpenUnwind.unflag, OpenUnwind.unaware, Action.map, hd]
      refine congrArg _ (funext fun s => funext fun r => ?_)
      rcases r with e | x <;> rfl
  · simp only [OpenUnwind.collect, deCollect, Spec.UnwindDe.plainD]
    cases C.refuse c i.name.expanded with
    | some e => rfl
    | none =>
      dsimp only
      cases D i with
      | done r => simp only [OpenUnwind.flag, OpenUnwind.unflag, OpenUnwind.unaware, Action.map, hd]
      | readString k => simp only [OpenUnwind.flag, OpenUnwind.unflag, OpenUnwind.unaware, Action.map, hd]
      | readTo sub k =>
        simp only [OpenUnwind.flag, OpenUnwind.unflag, OpenUnwind.unaware, Action.map, hd]
        refine congrArg _ (funext fun s => funext fun r => ?_)
        rcases r with e | x <;> rfl

end SX
