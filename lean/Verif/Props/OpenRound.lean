import Verif.Proof.OpenRoundBlanket
import Verif.Proof.OpenDeclared
import Verif.Props.Expanded
import Verif.Props.OpenRead
import Verif.Props.OpenSer
import Verif.Props.Writer

/-
C77: derived types whose fields have arbitrary types read back what they wrote, if the types of the fields do.
-/
namespace SX
open Spec Open Spec.Open

variable {σ τ α β : Type}

/-! ## C77 -/

/-- C77: a derived struct reads back what it wrote (from an element with any name), if each field does and at most one field is flattened. -/
theorem C77_struct (V : Visitor σ) (ns : List (String × String)) (rows : List (Row σ τ α)) (hD : Distinct (fieldsOf rows)) (h1 : OneFlatten (fieldsOf rows))
    (emb : List (OCell τ α) → σ) (proj : σ → Option (List (OCell τ α))) (hV : Includes V (structRaw (fieldsOf rows)) emb) (hp : ∀ t, proj (emb t) = some t)
    (hb : ∀ r ∈ rows, FieldBack V (fieldsOf rows) r) (name : EName) :
    ReadsAs V (deserVia (structRaw (fieldsOf rows)) emb proj) name (structSer ns (writtenOf rows)) (rows.map Row.value) := by
  obtain ⟨as, g, ha, hg, hr⟩ := struct_back ns rows hD h1 hb
  exact ⟨as, g, ha, hg, fun path x _ hx => (struct_read hV hD hp path x _).mpr (hr path x hx)⟩

/-- C77: a derived enum reads back what it wrote, if the payload does and at least one element is written for it. -/
theorem C77_enum (V : Visitor σ) (ns : List (String × String)) (ident : String) (vs : List (OVariant σ α)) (hs : Searchable vs) (emb : OEnum α → σ)
    (proj : σ → Option (OEnum α)) (hV : Includes V (enumRaw ident vs) emb) (hp : ∀ t, proj (emb t) = some t) {i : Nat} {var : OVariant σ α}
    (hi : vs[i]? = some var) {s : SVariant} {p : Option α} (hb : VariantBack V var s p) (name : EName) :
    ReadsAs V (deserVia (enumRaw ident vs) emb proj) name (enumSer ns s) (i, p) := by
  obtain ⟨g, ha, hg, -, hr⟩ := enum_back ns hi hb
  exact ⟨[], g, ha, hg, fun path x _ hx => (enum_read hV hs hp path x _).mpr (hr path x hx)⟩

/-- C77: a field of type `T` reads back what it wrote if `T` does. -/
theorem C77_one (V : Visitor σ) (D : Deser σ β) (inj : β → α) (get : α → Option β) (hg : ∀ b, get (inj b) = some b) (nm : DName)
    (df : Option (Ret Empty α)) (w : Ser) (v : β) (h : ReadsAs V D nm.expanded w v) (fields : List (OField σ τ α)) :
    FieldBack V fields ⟨⟨nm, .element ((deOne D).into inj get), df⟩, .element (fieldOne w), inj v⟩ :=
  elementBack_one hg h

/-- C77: a field of type `Option<T>` reads back what it wrote if `T` does; for `None` the default must be `None`, if there is one. -/
theorem C77_opt (V : Visitor σ) (D : Deser σ β) (inj : Option β → α) (get : α → Option (Option β)) (hg : ∀ b, get (inj b) = some b) (nm : DName)
    (df : Option (Ret Empty α)) (fields : List (OField σ τ α)) :
    (∀ w v, ReadsAs V D nm.expanded w v →
      FieldBack V fields ⟨⟨nm, .element ((deOpt D).into inj get), df⟩, .element (fieldOpt (some w)), inj (some v)⟩) ∧
    (df = none ∨ df = some (.ok (inj none)) →
      FieldBack V fields ⟨⟨nm, .element ((deOpt D).into inj get), df⟩, .element (fieldOpt none), inj none⟩) :=
  ⟨fun w v h => elementBack_opt (w := some w) (v := some v) hg h,
    fun h => elementBack_opt (w := none) (v := none) hg (h.imp (fun h => ⟨h, rfl⟩) id)⟩

/-- C77: a field of type `Vec<T>` reads back what it wrote if `T` does; for the empty `Vec` the default must be empty, if there is one. -/
theorem C77_vec (V : Visitor σ) (D : Deser σ β) (inj : List β → α) (get : α → Option (List β)) (hg : ∀ b, get (inj b) = some b) (nm : DName)
    (df : Option (Ret Empty α)) (ws : List Ser) (vs : List β) (h : Rowwise (ReadsAs V D nm.expanded) ws vs)
    (hd : vs = [] → df = none ∨ df = some (.ok (inj []))) (fields : List (OField σ τ α)) :
    FieldBack V fields ⟨⟨nm, .element ((deVec D).into inj get), df⟩, .element (fieldVec ws), inj vs⟩ :=
  elementBack_vec hg h fun he => (hd he).imp (fun h => ⟨h, rfl⟩) id

/-- C77: the same for variants, except that there must be an element. -/
theorem C77_variant (V : Visitor σ) (D : Deser σ β) (n : DName) :
    VariantBack V (⟨n, none⟩ : OVariant σ α) (.unit n) none ∧
    (∀ (inj : β → α) get w v, (∀ b, get (inj b) = some b) → ReadsAs V D n.expanded w v →
      VariantBack V ⟨n, some ((deOne D).into inj get)⟩ (.payload n (fieldOne w)) (some (inj v))) ∧
    (∀ (inj : Option β → α) get w v, (∀ b, get (inj b) = some b) → ReadsAs V D n.expanded w v →
      VariantBack V ⟨n, some ((deOpt D).into inj get)⟩ (.payload n (fieldOpt (some w))) (some (inj (some v)))) ∧
    ∀ (inj : List β → α) get ws vs, (∀ b, get (inj b) = some b) → vs ≠ [] → Rowwise (ReadsAs V D n.expanded) ws vs →
      VariantBack V ⟨n, some ((deVec D).into inj get)⟩ (.payload n (fieldVec ws)) (some (inj vs)) :=
  ⟨rfl, fun _ _ _ _ hg h => variantBack_one hg h, fun _ _ _ _ hg h => variantBack_opt hg h, fun _ _ _ _ hg hne h => variantBack_vec hg hne h⟩

/-- C77: an attribute reads back what it wrote if `parse` undoes `to_text`. -/
theorem C77_attribute (V : Visitor σ) (parse : String → Ret DErr β) (nm : DName) (df : Option (Ret Empty α)) (fields : List (OField σ τ α)) :
    (∀ (inj : β → α) s v, parse s = .ok v → FieldBack V fields ⟨⟨nm, .attribute ((deAttr parse).into inj), df⟩, .attribute (attrOne (.ok s)), inj v⟩) ∧
    (∀ (inj : Option β → α) s v, parse s = .ok v →
      FieldBack V fields ⟨⟨nm, .attribute ((deAttrOpt parse).into inj), df⟩, .attribute (attrOpt (some (.ok s))), inj (some v)⟩) ∧
    ∀ inj : Option β → α, df = none ∨ df = some (.ok (inj none)) →
      FieldBack V fields ⟨⟨nm, .attribute ((deAttrOpt parse).into inj), df⟩, .attribute (attrOpt none), inj none⟩ :=
  ⟨fun _ _ _ h => attributeBack_one h, fun _ s v h => attributeBack_opt (s := some s) (v := some v) h,
    fun _ h => attributeBack_opt (s := none) (v := none) (h.imp (fun h => ⟨h, rfl⟩) id)⟩

/-- C77: the content of an element that is text is read back if `parse` undoes `to_text` on what a parser reports, which is nothing if it is blank. -/
theorem C77_text (V : Visitor σ) (parse : String → Ret DErr β) (s : String) (v : β) (h : parse (visible s) = .ok v) (name : EName) :
    ReadsAs V (deText parse) name (textSer (.ok s)) v := by
  refine ⟨[], .chars s .nil, rfl, rfl, ?_⟩
  rintro path x - ⟨-, hx⟩
  obtain ⟨h1, h2⟩ := Open.denotes_text hx
  exact (C76_text V parse path x v).mpr ⟨h1, h2 ▸ h⟩

/-- C77: a type that reads back what it wrote does so when flattened, if what it writes has none of the other fields' names.  Its default plays no
role: this is so for the types derived here. -/
theorem C77_flatten (V : Visitor σ) {τ' : Type} (raw : Raw σ τ' β) (emb : τ' → σ) (proj : σ → Option τ') (hV : Includes V raw emb)
    (hp : ∀ t, proj (emb t) = some t) (it : τ' → τ) (gt : τ → Option τ') (ht : ∀ t, gt (it t) = some t) (inj : β → α) (get : α → Option β)
    (nm : DName) (df : Option β) (hd : ∀ d t t', df = some d → raw.finalize t none = .ok (t', .ok ()) → raw.finalize t (some (.ok d)) = .ok (t', .ok ()))
    (hg : ∀ b, get (inj b) = some b) (w : Ser) (v : β) (fields : List (OField σ τ α)) (as : List (EName × String)) (g : EForest)
    (ha : AttrProg.asks w.attrs [] = some as) (hw : Prog.asks w.children [] = some (g.events, .ok ())) (hP : ∀ a ∈ as, ¬ IsAttribute fields a.1)
    (hQ : Others (IsElement fields) g) (h : ∀ name, ReadsAs V (deserVia raw emb proj) name w v) :
    FieldBack V fields ⟨⟨nm, .flatten (raw.into it gt inj get), df.map fun d => .ok (inj d)⟩, .flatten w, inj v⟩ := by
  refine flattened_into (d' := df.map .ok) ht ?_ (flattened_back hV hp ?_ ha hw hP hQ h)
  · cases df with
    | none => trivial
    | some d => exact hg d
  · intro t t' hf
    cases df with
    | none => exact hf
    | some d => exact hd d t t' rfl hf

/-- The condition on defaults. -/
theorem C77_flatten_default (t t' : List (OCell τ α)) (u u' : OEnum α) :
    (∀ (fields : List (OField σ τ α)) d, (structRaw fields).finalize t none = .ok (t', .ok ()) → (structRaw fields).finalize t (some (.ok d)) = .ok (t', .ok ())) ∧
    ∀ ident (vs : List (OVariant σ α)) d, (enumRaw ident vs).finalize u none = .ok (u', .ok ()) →
      (enumRaw ident vs).finalize u (some (.ok d)) = .ok (u', .ok ()) := by
  refine ⟨fun _ _ h => h, fun ident vs d h => ?_⟩
  simp only [enumRaw, enumFinalize] at h ⊢
  split at h
  · rename_i hi
    rw [if_pos hi]
    exact h
  · cases h

/-- C77: a value that is written to a document is read back from it, whoever wrote the implementations for its type, if they read back what they wrote. -/
theorem C77_document (dbg dbg' : Bool) (V : Visitor σ) (D : Deser σ β) (hN : dbg' = false ∨ NoSwallow V ∧ DeserNoSwallow D) (sink : Sink)
    (hsink : ∀ out e, sink out e = none) (name : EName) (w : Ser) (v : β) (h : ReadsAs V D name w v) (hd : DocumentDeclared name w.attrs w.children)
    (hf : NoForget w.children) :
    ∃ s, serializeTo dbg sink name w.attrs w.children = .ok (s, .ok ()) ∧ (∃ d, Transported s.out d) ∧
      ∀ d, Transported s.out d → read dbg' V D d.input = .ok (.ok v) := by
  obtain ⟨as, g, ha, hg, hr⟩ := h
  have hask : documentAsked name w.attrs w.children = some (.start name as :: (g.events ++ [.stop])) := by
    simp [documentAsked, ha, hg]
  obtain ⟨s, r, hs⟩ := serializeTo_total dbg sink name w.attrs w.children hd
  obtain rfl := serializeTo_accepted hsink hs hask
  obtain ⟨es, h1, h2⟩ := C29_declared_partial hd hf hs
  rw [hask] at h1
  cases h1
  refine ⟨s, hs, C43_transportable h2, fun d hT => ?_⟩
  obtain ⟨n, as', f, k1, k2, k3, k4⟩ := C43_document s.out d hT (by rw [h2]; rfl)
  rw [h2] at k1
  simp only [Option.some.injEq, List.cons.injEq, EEvent.start.injEq] at k1
  obtain ⟨⟨rfl, rfl⟩, k1⟩ := k1
  obtain rfl : g = f := (events_inj g f [] [] (by simpa using k1)).1
  have hread : read dbg' V D d.input = readDoc V D d := by
    rcases hN with rfl | hN
    · exact C10_reader_in_sync _ _ _
    · cases dbg' with
      | false => exact C10_reader_in_sync _ _ _
      | true => exact C10_reader_in_sync_debug _ _ hN.1 hN.2 _
  rw [hread, readDoc_ok]
  exact hr [] d.root k2 ⟨k3, k4⟩

/-! ### Example -/

namespace ExRB

/-- Values of all types of the example. -/
inductive Vl where
  | text (s : String)
  | note (s : Option String)
  | counts (l : List Nat)
  | enm (e : Nat × Option String)
  deriving DecidableEq, Repr

/-- The visitors of the example. -/
inductive St where
  | cells (l : List (OCell (OEnum String) Vl))
  | enm (e : OEnum String)
  | count (n : Nat)

/-- A type written by hand: a number, written as that many elements. -/
def countD : Deser St Nat := fun _ => .readTo (.count 0) fun s r =>
  match r, s with
  | .error e, _ => .ok (.error e)
  | .ok _, .count n => .ok (.ok n)
  | .ok _, _ => .error .panic

def countElems : Nat → Prog [.writer false]
  | 0 => .ret (.ok ())
  | n + 1 => andThen (fieldOne ⟨.ret (.ok ()), .ret (.ok ())⟩ ⟨"", "one"⟩) (countElems n)

def countSer (n : Nat) : Ser := ⟨.ret (.ok ()), countElems n⟩

/-- `enum E { Word(String), Nothing }` -/
def variants : List (OVariant St String) := [⟨⟨none, "word"⟩, some ((deOne (deText .ok)).into id some)⟩, ⟨⟨none, "nothing"⟩, none⟩]

def getText : Vl → Option String
  | .text s => some s
  | _ => none

def getNote : Vl → Option (Option String)
  | .note s => some s
  | _ => none

def getCounts : Vl → Option (List Nat)
  | .counts l => some l
  | _ => none

def getEnm : Vl → Option (Nat × Option String)
  | .enm e => some e
  | _ => none

/-- `struct S { c: Vec<Count>, a: String (attribute), e: E (flattened, default), note: Option<String> }`, and the value
`S { c: [2, 0], a: "xyz", e: Word("w"), note: None }`. -/
def rows : List (Row St (OEnum String) Vl) :=
  [⟨⟨⟨none, "c"⟩, .element ((deVec countD).into .counts getCounts), none⟩, .element (fieldVec [countSer 2, countSer 0]), .counts [2, 0]⟩,
   ⟨⟨⟨none, "a"⟩, .attribute ((deAttr .ok).into .text), none⟩, .attribute (attrOne (.ok "xyz")), .text "xyz"⟩,
   ⟨⟨⟨none, "e"⟩, .flatten ((enumRaw "E" variants).into id some .enm getEnm), (some (1, none)).map fun d => .ok (.enm d)⟩,
     .flatten (enumSer [] (.payload ⟨none, "word"⟩ (fieldOne (textSer (.ok "w"))))), .enm (0, some "w")⟩,
   ⟨⟨⟨none, "note"⟩, .element ((deOpt (deText .ok)).into .note getNote), none⟩, .element (fieldOpt none), .note none⟩]

def V : Visitor St where
  onAttr s n v :=
    match s with
    | .cells t => heardText .cells ((structRaw (fieldsOf rows)).attr t n v)
    | .enm t => heardText .enm ((enumRaw "E" variants).attr t n v)
    | .count n => .ok (.count n, .ok ())
  onChars s v pos :=
    match s with
    | .cells t => heardText .cells ((structRaw (fieldsOf rows)).characters t v pos)
    | .enm t => heardText .enm ((enumRaw "E" variants).characters t v pos)
    | .count n => .ok (.count n, .ok ())
  onElem s info :=
    match s with
    | .cells t => heardElem .cells ((structRaw (fieldsOf rows)).element t info)
    | .enm t => heardElem .enm ((enumRaw "E" variants).element t info)
    | .count n => .done (.ok (.count (n + 1), .ok ()))

def projCells : St → Option (List (OCell (OEnum String) Vl))
  | .cells t => some t
  | _ => none

def projEnm : St → Option (OEnum String)
  | .enm t => some t
  | _ => none

theorem includes : Includes V (structRaw (fieldsOf rows)) .cells where
  attr _ _ _ := rfl
  chars _ _ _ := rfl
  elem _ _ := rfl

theorem includes' : Includes V (enumRaw "E" variants) .enm where
  attr _ _ _ := rfl
  chars _ _ _ := rfl
  elem _ _ := rfl

/-- What is written for a number. -/
def countForest : Nat → EForest
  | 0 => .nil
  | n + 1 => .elem ⟨"", "one"⟩ [] .nil (countForest n)

theorem count_asks (n : Nat) : Prog.asks (countElems n) [] = some ((countForest n).events, .ok ()) := by
  induction n with
  | zero => rfl
  | succ n ih =>
    rw [countElems, asks_then (asks_fieldOne (v := ⟨.ret (.ok ()), .ret (.ok ())⟩) (g := .nil) rfl rfl) ih]
    rfl

theorem count_content {n : Nat} {F : Forest} (h : Denotes (countForest n) F) (here : List StackElem) (m : Nat) :
    content V here F (.count m) = .ok (.count (m + n), .ok ()) := by
  apply okContent_some.mp
  generalize hg : countForest n = g at h
  induction h generalizing n m with
  | nil =>
    cases n with
    | zero => rfl
    | succ n => cases hg
  | elem hn ha hc hr _ ih =>
    cases n with
    | zero => cases hg
    | succ n =>
      cases hg
      have := ih (m + 1) rfl
      rw [Nat.add_right_comm m 1 n] at this
      rw [content_elem]
      exact this
  | chars hs hr ih =>
    cases n <;> cases hg
  | blank hs hr ih =>
    cases n <;> cases hg
  | misc h ih => rw [content]; exact ih m hg

/-- The hand-written type reads back what it wrote. -/
theorem count_back (n : Nat) (name : EName) : ReadsAs V countD name (countSer n) n := by
  refine ⟨[], countForest n, rfl, count_asks n, ?_⟩
  rintro path x - ⟨ha, hx⟩
  have hx' : x.attrs = [] := List.map_eq_nil_iff.mp ha
  have := count_content hx (path ++ [{ name := x.name, pos := x.pos }]) 0
  rw [reads_perform]
  simp only [countD, perform, hx', attributes, this, Nat.zero_add]
  exact ⟨_, rfl⟩

theorem searchable : Searchable variants where
  distinct i j v w hi hj hn := by
    match i, j with
    | 0, 0 => rfl
    | 1, 1 => rfl
    | 0, 1 | 1, 0 =>
      simp only [variants, List.getElem?_cons_zero, List.getElem?_cons_succ, Option.some.injEq] at hi hj
      subst hi hj
      simp [DName.expanded] at hn
    | i + 2, _ => simp [variants] at hi
    | _, j + 2 => simp [variants] at hj
  noneFirst := by
    intro d hd e he h1 h2
    simp only [variants, List.map_cons, List.map_nil, List.mem_cons, List.not_mem_nil, or_false] at he
    rcases he with rfl | rfl <;> cases h2

theorem enum_reads (name : EName) : ReadsAs V (deserVia (enumRaw "E" variants) .enm projEnm) name
    (enumSer [] (.payload ⟨none, "word"⟩ (fieldOne (textSer (.ok "w"))))) (0, some "w") :=
  C77_enum V [] "E" variants searchable .enm projEnm includes' (fun _ => rfl) (i := 0) rfl
    ((C77_variant V (deText .ok) ⟨none, "word"⟩).2.1 id some (textSer (.ok "w")) "w" (fun _ => rfl) (C77_text V .ok "w" "w" (by
      rw [visible, if_neg (by decide)]) _)) name

theorem distinct : Distinct (fieldsOf rows) := by
  intro p q f g hp hq hn hk
  match p, q with
  | 0, 0 => rfl
  | 1, 1 => rfl
  | 2, 2 => rfl
  | 3, 3 => rfl
  | 0, 1 | 1, 0 | 0, 2 | 2, 0 | 0, 3 | 3, 0 | 1, 2 | 2, 1 | 1, 3 | 3, 1 | 2, 3 | 3, 2 =>
    simp only [fieldsOf, rows, List.map_cons, List.getElem?_cons_zero, List.getElem?_cons_succ, Option.some.injEq] at hp hq
    subst hp hq
    simp [DName.expanded] at hn
  | p + 4, _ => simp [fieldsOf, rows] at hp
  | _, q + 4 => simp [fieldsOf, rows] at hq

theorem oneFlatten : OneFlatten (fieldsOf rows) := by
  intro p q f g raw raw' hp hq hf hg
  match p, q with
  | 2, 2 => rfl
  | 0, _ | 1, _ | 3, _ =>
    simp only [fieldsOf, rows, List.map_cons, List.getElem?_cons_zero, List.getElem?_cons_succ, Option.some.injEq] at hp
    subst hp
    cases hf
  | _, 0 | _, 1 | _, 3 =>
    simp only [fieldsOf, rows, List.map_cons, List.getElem?_cons_zero, List.getElem?_cons_succ, Option.some.injEq] at hq
    subst hq
    cases hg
  | p + 4, _ => simp [fieldsOf, rows] at hp
  | _, q + 4 => simp [fieldsOf, rows] at hq

theorem not_element : ¬ IsElement (fieldsOf rows) ⟨"", "word"⟩ := by
  rintro ⟨f, hf, -, hn⟩
  simp only [fieldsOf, rows, List.map_cons, List.map_nil, List.mem_cons, List.not_mem_nil, or_false] at hf
  rcases hf with rfl | rfl | rfl | rfl <;> simp [DName.expanded] at hn

/-- Every field reads back what it wrote. -/
theorem back : ∀ r ∈ rows, FieldBack V (fieldsOf rows) r := by
  intro r hr
  simp only [rows, List.mem_cons, List.not_mem_nil, or_false] at hr
  rcases hr with rfl | rfl | rfl | rfl
  · exact C77_vec V countD .counts getCounts (fun _ => rfl) ⟨none, "c"⟩ none [countSer 2, countSer 0] [2, 0]
      (.cons (count_back 2 _) (.cons (count_back 0 _) .nil)) (by simp) _
  · exact (C77_attribute V .ok ⟨none, "a"⟩ none _).1 Vl.text "xyz" "xyz" rfl
  · exact C77_flatten V (enumRaw "E" variants) .enm projEnm includes' (fun _ => rfl) id some (fun _ => rfl) .enm getEnm ⟨none, "e"⟩ (some (1, none))
      (fun d t t' _ h => (C77_flatten_default (τ := Unit) [] [] t t').2 "E" variants d h) (fun _ => rfl) _ _ _ []
      (.elem ⟨"", "word"⟩ [] (.chars "w" .nil) .nil) rfl rfl (by simp) ⟨not_element, trivial⟩ enum_reads
  · exact (C77_opt V (deText .ok) .note getNote (fun _ => rfl) ⟨none, "note"⟩ none _).2 (.inl rfl)

theorem count_declared (n : Nat) : Prog.Declared (countElems n) [.writer [] false] := by
  induction n with
  | zero => trivial
  | succ n ih => exact declared_then (declared_fieldOne ⟨.inr (.inr ⟨rfl, rfl⟩), trivial⟩) ih

theorem count_noForget (n : Nat) : NoForget (countElems n) := by
  induction n with
  | zero => trivial
  | succ n ih => exact andThen_noForget (fieldOne_noForget _ _ trivial) ih

/-- Whatever document carries what the struct wrote, the value is read back from it. -/
example : ∃ s, serializeTo true ExOS.fine (ExOS.n "r") (structSer [] (writtenOf rows)).attrs (structSer [] (writtenOf rows)).children = .ok (s, .ok ()) ∧
    (∃ d, Transported s.out d) ∧ ∀ d, Transported s.out d →
      read false V (deserVia (structRaw (fieldsOf rows)) .cells projCells) d.input = .ok (.ok [.counts [2, 0], .text "xyz", .enm (0, some "w"), .note none]) := by
  refine C77_document true false V _ (.inl rfl) ExOS.fine (fun _ _ => rfl) _ _ _
    (C77_struct V [] rows distinct oneFlatten .cells projCells includes (fun _ => rfl) back (ExOS.n "r")) ?_ ?_
  · refine declared_structSer _ _ _ _ _ _ (by simp) ?_
    refine ⟨.inl rfl, fun res => ?_⟩
    cases res with
    | error e => trivial
    | ok u =>
      refine ⟨.inr (.inr ⟨rfl, rfl⟩), fun p hp => ?_⟩
      simp only [elementsOf, flattenedOf, writtenOf, rows, List.map_cons, List.map_nil, List.filterMap_cons, List.filterMap_nil, List.cons_append,
        List.nil_append, List.mem_cons, List.not_mem_nil, or_false] at hp
      rcases hp with rfl | rfl | rfl
      · refine declared_fieldVec fun w hw => ?_
        simp only [List.mem_cons, List.not_mem_nil, or_false] at hw
        rcases hw with rfl | rfl
        · exact ⟨.inr (.inr ⟨rfl, rfl⟩), count_declared 2⟩
        · exact ⟨.inr (.inr ⟨rfl, rfl⟩), count_declared 0⟩
      · exact trivial
      · exact declared_then (declared_fieldOne ⟨.inr (.inr ⟨rfl, rfl⟩), fun _ => trivial⟩) trivial
  · refine structSer_noForget _ _ ?_ ?_
    · intro p hp
      simp only [elementsOf, writtenOf, rows, List.map_cons, List.map_nil, List.filterMap_cons, List.filterMap_nil, List.mem_cons, List.not_mem_nil,
        or_false] at hp
      rcases hp with rfl | rfl
      · exact andThen_noForget (fieldOne_noForget _ _ (count_noForget 2)) (andThen_noForget (fieldOne_noForget _ _ (count_noForget 0)) trivial)
      · exact trivial
    · intro v hv
      simp only [flattenedOf, writtenOf, rows, List.map_cons, List.map_nil, List.filterMap_cons, List.filterMap_nil, List.mem_cons, List.not_mem_nil,
        or_false] at hv
      subst hv
      exact andThen_noForget (fieldOne_noForget _ _ fun _ => trivial) trivial

end ExRB

/-- A field of the hand-written type of the example. -/
example := C77_one (τ := Unit) (α := Nat) ExRB.V ExRB.countD id some (fun _ => rfl) ⟨none, "c"⟩ none (ExRB.countSer 2) 2 (ExRB.count_back 2 _) []

end SX
