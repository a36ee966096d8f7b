import Verif.Proof.CostLower
import Verif.Proof.CostSeen
import Verif.Proof.CostWords
import Verif.Proof.CostMoved
import Verif.Proof.CostPrefix
import Verif.Props.Normalize
import Verif.Props.Reader
import Verif.Props.Derive
import Verif.Props.Writer

/-
C84: how much work reading and writing take.  `Model/Cost.lean` has the functions of the model with counts; each theorem here says first that the function with counts
gives what the function of the model gives.
-/
namespace SX
open Spec Spec.Cost

/-- `normalize` looks at each byte at most twice (and at two bytes once more) and moves no more bytes than there are. -/
theorem C84_normalize (v : List UInt8) (mode : WhiteSpace) :
    (Cost.normalize v mode).2 = normalizeBytes v mode ∧
    (Cost.normalize v mode).1.looked ≤ 2 * v.length + 2 ∧ (Cost.normalize v mode).1.moved ≤ v.length := by
  refine ⟨Cost.normalize_value v mode, ?_⟩
  have h : ∃ out, normalizeBytes v mode = some out := by
    cases mode with
    | preserve => exact ⟨_, rfl⟩
    | replace => exact ⟨_, normalizeBytes_replace v⟩
    | collapse =>
      obtain ⟨e, -, -, -, h⟩ := normalizeBytes_collapse v
      exact ⟨_, h⟩
  obtain ⟨out, h⟩ := h
  exact Cost.normalize_bytes v mode out (by rw [Cost.normalize_value, h])

/-- Exactly: nothing is looked at if white space is preserved; each byte once, and nothing moved, if it is replaced; if it is collapsed each byte once, the first byte of
each word once more, and one more. -/
theorem C84_looked (v : List UInt8) :
    (Cost.normalize v .preserve).1 = ⟨0, 0⟩ ∧ (Cost.normalize v .replace).1 = ⟨v.length, 0⟩ ∧
    (Cost.normalize v .collapse).1.looked = v.length + (if words v = 0 then 0 else words v + 1) := by
  refine ⟨rfl, ?_, Cost.normalize_looked v⟩
  have h1 := Cost.normRest_looked false v.length 0 v
  have h2 := Cost.normLoop_looked_replace v.length v 0 0 0 (by omega) (Nat.le_refl _)
  obtain ⟨v', e1, -, -⟩ := normLoop_replace v.length v 0 0 0 (by omega) (by omega) (Nat.le_refl _)
  rw [← Cost.normLoop_value] at e1
  simp only [Cost.normalize, Cost.normRest]
  revert h2 e1
  generalize Cost.normLoop false v.length v 0 0 0 = q
  obtain ⟨w, q⟩ := q
  intro h2 e1
  dsimp only at h2 e1
  subst h2 e1
  simp [Cost.normFinish]

example : words [0x20, 0x20, 0x61, 0x20, 0x20, 0x62, 0x20] = 2 := rfl

/-- `"  a  b "`: seven bytes. -/
example : Cost.normalize [0x20, 0x20, 0x61, 0x20, 0x20, 0x62, 0x20] .collapse = (⟨10, 3⟩, some [0x61, 0x20, 0x62]) := by
  simp [Cost.normalize, Cost.trimEnd, Cost.leading, Cost.normRest, Cost.normLoop, Cost.skipWs, Cost.normFinish, copyWithin, isWsByte]

/-- Exactly: the bytes moved are those of the result, none if nothing is left out but white space at the end. -/
theorem C84_moved (v : List UInt8) :
    ∃ out, normalizeBytes v .collapse = some out ∧
      (Cost.normalize v .collapse).1.moved = if out.length = (v.reverse.dropWhile blank).length then 0 else out.length := by
  obtain ⟨e, -, -, -, h⟩ := normalizeBytes_collapse v
  exact ⟨_, h, Cost.normalize_moved v _ (by rw [Cost.normalize_value, h])⟩

/-- `"a b "`: nothing is moved. -/
example : Cost.normalize [0x61, 0x20, 0x62, 0x20] .collapse = (⟨4 + 3, 0⟩, some [0x61, 0x20, 0x62]) := by
  simp [Cost.normalize, Cost.trimEnd, Cost.leading, Cost.normRest, Cost.normLoop, Cost.skipWs, Cost.normFinish, isWsByte]

/-- Lookup compares as many names as the size of the table has binary digits. -/
theorem C84_find (name : EName) (t : List EName) :
    (Cost.find name t).2 = find name t ∧ (Cost.find name t).1 ≤ digits t.length :=
  ⟨Cost.find_value name t, Cost.find_compared name t⟩

/-- `digits` is the number of binary digits: tables of less than `2 ^ k` names need `k` comparisons. -/
theorem C84_digits (n k : Nat) : digits n ≤ k ↔ n < 2 ^ k := by
  induction k generalizing n with
  | zero =>
    cases n with
    | zero => simp [digits]
    | succ n => simp [digits]
  | succ k ih =>
    cases n with
    | zero => simp [digits, Nat.pow_pos]
    | succ n =>
      rw [digits, Nat.add_le_add_iff_right, ih, Nat.pow_succ]
      omega

example : digits 100 = 7 := by simp [digits]

/-- Whatever visitors do: `read_to` presents each element, attribute and text to a visitor at most once, and fetches no more events than there are, but for one more at the
end and one for each element, which may find an error of the input again. -/
theorem C84_read {σ α : Type} (dbg : Bool) (V : Visitor σ) (C : Cost.Effort σ) (D : Deser σ α) (i : Input) :
    (Cost.read dbg V C D i).2 = read dbg V D i ∧ ∀ r, read dbg V D i = .ok r →
      let t := (Cost.read dbg V C D i).1
      t.elems ≤ elements i.items ∧ t.attrs ≤ attributes i.items ∧ t.chars ≤ texts i.items ∧ t.fetched ≤ i.items.length + t.elems + 2 := by
  refine ⟨Cost.read_value dbg V C D i, ?_⟩
  intro r h
  rw [← Cost.read_value dbg V C] at h
  simp only [Cost.read] at h ⊢
  revert h
  have hi : i.start.inner.items = i.items := rfl
  generalize hr : Cost.root dbg i.start = z
  obtain ⟨n, _ | ⟨_ | er, s⟩⟩ := z
  · intro h; cases h
  · intro _
    have := Cost.root_error_count _ _ _ _ _ hr
    rw [hi] at this
    simp only [Cost.Tally.fetches]
    omega
  · obtain ⟨a1, a2, a3, a4⟩ := Cost.root_within _ _ _ _ _ hr
    rw [hi] at a1 a2 a3 a4
    dsimp only
    generalize hq : Cost.runDeser dbg V C D (s.inner.items.length + 1) er s = q
    obtain ⟨t, _ | ⟨_ | x, s'⟩⟩ := q
    · intro h; cases h
    · intro _
      obtain ⟨b1, b2, b3, b4⟩ := Cost.runDeser_within _ _ _ _ _ _ _ _ _ _ hq
      simp only [Cost.Tally.add, Cost.Tally.fetches]
      omega
    · obtain ⟨b1, b2, b3, b4⟩ := Cost.runDeser_within _ _ _ _ _ _ _ _ _ _ hq
      dsimp only
      generalize hz : Cost.endDoc dbg s' = z
      obtain ⟨m, _ | _ | _⟩ := z
      · intro h; cases h
      · intro _
        have := Cost.endDoc_count _ _ _ _ hz
        simp only [Cost.Tally.add, Cost.Tally.fetches]
        omega
      · intro _
        have := Cost.endDoc_count _ _ _ _ hz
        simp only [Cost.Tally.add, Cost.Tally.fetches]
        omega

/-- A document that is read to a value is fetched exactly once, with the end of the document after it: whatever visitors skip or do with errors. -/
theorem C84_read_once {σ α : Type} (dbg : Bool) (V : Visitor σ) (C : Cost.Effort σ) (D : Deser σ α) (d : Doc) (a : α)
    (h : read dbg V D d.input = .ok (.ok a)) : (Cost.read dbg V C D d.input).1.fetched = d.input.items.length + 1 :=
  Cost.read_once dbg V C D d.input a rfl (by rw [Cost.read_value]; exact h)

/-- The document of `Ex.doc`: 20 events with the end of the document; five calls for what is not skipped. -/
example : (Cost.read true Ex.V ⟨fun _ _ _ => 1, fun _ _ _ => 1, fun _ _ => 1⟩ Ex.D Ex.doc.input).1.fetched = Ex.doc.input.items.length + 1 ∧
    ∃ a, read true Ex.V Ex.D Ex.doc.input = .ok (.ok a) := ⟨rfl, _, rfl⟩

/-- Nothing is looked at that is not counted: another input that begins with the same events is read with the same result, whatever comes after those fetched.  (A read to
a value fetches all, by C84_read_once; this is about errors found before the end.) -/
theorem C84_determined {σ α : Type} (dbg : Bool) (V : Visitor σ) (C : Cost.Effort σ) (D : Deser σ α) (i i' : Input) (r : Except Error α)
    (h : read dbg V D i = .ok r) (hn : (Cost.read dbg V C D i).1.fetched ≤ i.items.length)
    (hi : i'.items.take (Cost.read dbg V C D i).1.fetched = i.items.take (Cost.read dbg V C D i).1.fetched) :
    read dbg V D i' = .ok r ∧ (Cost.read dbg V C D i').1 = (Cost.read dbg V C D i).1 := by
  have := Cost.read_seen dbg V C D i i' r (by rw [Cost.read_value]; exact h) hn hi
  exact ⟨by rw [← Cost.read_value dbg V C D, this, Cost.read_value]; exact h, by rw [this]⟩

/-- An element where text is wanted: an error after three events, whatever comes after the tag. -/
example (more : List (XEvent × Pos)) (final : Final) (finalPos : Pos) :
    let e : Error := { kind := .msg (.elementInString ⟨"b", none, none⟩), stack := [⟨⟨"a", none, none⟩, ⟨0, 0⟩⟩, ⟨⟨"b", none, none⟩, ⟨0, 3⟩⟩], pos := ⟨0, 3⟩ }
    let i : Input := ⟨[(.startDocument, ⟨0, 0⟩), (.startElement ⟨"a", none, none⟩ [] [], ⟨0, 0⟩), (.startElement ⟨"b", none, none⟩ [] [], ⟨0, 3⟩)] ++ more, final, finalPos⟩
    read true Ex.V (fun _ => .readString fun x => .ok x) i = .ok (.error e) := by
  dsimp only
  refine (C84_determined true Ex.V ⟨fun _ _ _ => 1, fun _ _ _ => 1, fun _ _ => 1⟩ _
    ⟨[(.startDocument, ⟨0, 0⟩), (.startElement ⟨"a", none, none⟩ [] [], ⟨0, 0⟩), (.startElement ⟨"b", none, none⟩ [] [], ⟨0, 3⟩)], .eof, ⟨0, 6⟩⟩ _ _ rfl ?_ ?_).1
  · exact Nat.le_refl 3
  · rfl

/-- The work of visitors is bounded by the calls: what each call takes at most, times the number of elements, attributes and texts. -/
theorem C84_work {σ α : Type} (dbg : Bool) (V : Visitor σ) (C : Cost.Effort σ) (D : Deser σ α) (i : Input) (A T E : Nat) (hA : ∀ v n x, C.attr v n x ≤ A)
    (hT : ∀ v x p, C.chars v x p ≤ T) (hE : ∀ v j, C.elem v j ≤ E) (r : Except Error α) (h : read dbg V D i = .ok r) :
    (Cost.read dbg V C D i).1.work ≤ attributes i.items * A + texts i.items * T + elements i.items * E := by
  have h1 := Cost.read_paid dbg V C A T E hA hT hE D i
  obtain ⟨h2, h3, h4, -⟩ := (C84_read dbg V C D i).2 r h
  unfold Cost.Paid at h1
  have g1 := Nat.mul_le_mul_right A h3
  have g2 := Nat.mul_le_mul_right T h4
  have g3 := Nat.mul_le_mul_right E h2
  omega

/-- The count leaves nothing out: if each call takes exactly so much, the work is that of all calls, also if reading fails. -/
theorem C84_work_exact {σ α : Type} (dbg : Bool) (V : Visitor σ) (C : Cost.Effort σ) (D : Deser σ α) (i : Input) (A T E : Nat) (hA : ∀ v n x, C.attr v n x = A)
    (hT : ∀ v x p, C.chars v x p = T) (hE : ∀ v j, C.elem v j = E) :
    let t := (Cost.read dbg V C D i).1
    t.work = t.attrs * A + t.chars * T + t.elems * E :=
  Nat.le_antisymm
    (Cost.read_paid dbg V C A T E (fun v n x => Nat.le_of_eq (hA v n x)) (fun v x p => Nat.le_of_eq (hT v x p)) (fun v j => Nat.le_of_eq (hE v j)) D i)
    (Cost.read_spent dbg V C A T E (fun v n x => Nat.le_of_eq (hA v n x).symm) (fun v x p => Nat.le_of_eq (hT v x p).symm) (fun v j => Nat.le_of_eq (hE v j).symm) D i)

/-- Two of three texts and three of five elements: the others are within what is skipped. -/
example : (Cost.read true Ex.V ⟨fun _ _ _ => 100, fun _ _ _ => 10, fun _ _ => 1⟩ Ex.D Ex.doc.input).1 = ⟨Ex.doc.input.items.length + 1, 1, 2, 3, 123⟩ := rfl

example : (Cost.read false Ex.V ⟨fun _ _ x => x.length, fun _ x _ => min x.length 5, fun _ _ => 3⟩ Ex.D Ex.doc.input).1.work ≤ 23 ∧
    elements Ex.doc.input.items = 5 ∧ attributes Ex.doc.input.items = 1 ∧ texts Ex.doc.input.items = 3 := ⟨by decide, rfl, rfl, rfl⟩

/-- The names that derived types compare: for each attribute the digits of the number of fields; for each element those and, per flattened field, the digits of the number
of variants.  So reading takes time linear in the document, with a factor that is logarithmic in the sizes of the declarations and linear in the flattened fields. -/
theorem C84_derived (dbg : Bool) (env : Env) (ty : Ty) (i : Input) (F K N : Nat) (hF : ∀ i, (env.strct i).fields.length ≤ F)
    (hK : ∀ i, flattened (env.strct i).fields ≤ K) (hN : ∀ e, (env.enm e).variants.length ≤ N) :
    (Cost.read dbg (derivedVisitor env) (Cost.derivedEffort env) (fun _ => deserTy env ty) i).2 = readTy dbg env ty i ∧
    ∀ r, readTy dbg env ty i = .ok r →
      (Cost.read dbg (derivedVisitor env) (Cost.derivedEffort env) (fun _ => deserTy env ty) i).1.work ≤
        attributes i.items * digits F + elements i.items * max (digits F + K * digits N) (digits N) := by
  refine ⟨Cost.read_value .., ?_⟩
  intro r h
  have := C84_work dbg (derivedVisitor env) (Cost.derivedEffort env) (fun _ => deserTy env ty) i (digits F) 0 (max (digits F + K * digits N) (digits N))
    (Cost.derivedEffort_attr env F hF) (fun _ _ _ => Nat.le_refl _) (Cost.derivedEffort_elem env F K N hF hK hN) r h
  simpa using this

/-- The lookups for an element that nothing takes: one among the fields, and one in each flattened enum. -/
theorem C84_unknown (env : Env) (i : Nat) (fs : List FState) (info : ElemInfo)
    (hs : SX.lookup info.name.expanded (structTable (elemNames (env.strct i).fields 0)) = .ok none)
    (hf : ∀ x ∈ flattens (env.strct i).fields 0, ∃ st, fs[x.1]? = some st ∧ enumElement env x.2 st info.name.expanded = .ok none) :
    (Cost.derivedEffort env).elem (.strct i fs) info =
      (Cost.find info.name.expanded ((structTable (elemNames (env.strct i).fields 0)).map Prod.snd)).1 +
      ((flattens (env.strct i).fields 0).map fun x =>
        (Cost.find info.name.expanded ((enumTable (variantNames (env.enm x.2).variants 0)).map Prod.snd)).1).sum := by
  have key : ∀ l : List (Nat × Nat), (∀ x ∈ l, ∃ st, fs[x.1]? = some st ∧ enumElement env x.2 st info.name.expanded = .ok none) →
      Cost.delegate env fs info.name.expanded l =
        (l.map fun x => (Cost.find info.name.expanded ((enumTable (variantNames (env.enm x.2).variants 0)).map Prod.snd)).1).sum := by
    intro l
    induction l with
    | nil => intro _; rfl
    | cons x l ih =>
      intro h
      obtain ⟨st, h1, h2⟩ := h x (List.mem_cons_self ..)
      simp only [Cost.delegate, h1, h2, Cost.lookup, List.map_cons, List.sum_cons, ih fun y hy => h y (List.mem_cons_of_mem _ hy)]
  simp only [Cost.derivedEffort, hs, key _ hf, Cost.lookup]

/-- Two flattened enums of one and three variants, neither read yet: one comparison with the field, and one and two with the variants. -/
example : ∃ (env : Env) (fs : List FState) (info : ElemInfo), flattened (env.strct 0).fields = 2 ∧
    SX.lookup info.name.expanded (structTable (elemNames (env.strct 0).fields 0)) = .ok none ∧
    (∀ x ∈ flattens (env.strct 0).fields 0, ∃ st, fs[x.1]? = some st ∧ enumElement env x.2 st info.name.expanded = .ok none) ∧
    (Cost.derivedEffort env).elem (.strct 0 fs) info = 1 + (1 + 2) := by
  have back {α : Type} {x : Except Fault (Option α)} (h : (match x with | .ok none => true | _ => false) = true) : x = .ok none := by
    split at h
    · rfl
    · cases h
  let nm (x : String) : DName := ⟨none, x⟩
  refine ⟨{ strct := fun _ => { root := nm "S", namespaces := [], fields :=
              [{ name := nm "a", kind := .element ⟨.one, .text .bool⟩, default := none }, { name := nm "e", kind := .flatten 0, default := none },
               { name := nm "f", kind := .flatten 1, default := none }] },
            enm := fun e => { ident := "E", root := nm "E", namespaces := [], variants :=
              if e = 0 then [⟨nm "b", none, false⟩] else [⟨nm "c", none, false⟩, ⟨nm "d", none, false⟩, ⟨nm "g", none, false⟩] } },
          [⟨false, none⟩, ⟨false, none⟩, ⟨false, none⟩], ⟨⟨"z", none, none⟩, [], 1⟩, rfl, back (by decide), ?_, by decide⟩
  intro x hx
  simp only [flattens, List.mem_cons, List.not_mem_nil, or_false] at hx
  rcases hx with rfl | rfl
  · exact ⟨_, rfl, back (by decide)⟩
  · exact ⟨_, rfl, back (by decide)⟩

/-- The prefixes that are tried when `r` of `n` mappings are required: at most `r (r + 1) / 2` for those and one for each of the others. -/
theorem C84_prefixes (b : NsBuilder) :
    (Cost.finalize b).2 = b.finalize ∧
    let r := (b.filter fun x => x.2.required).length
    2 * (Cost.finalize b).1 ≤ r * (r + 1) + 2 * (b.length - r) :=
  ⟨Cost.finalize_value b, Cost.finalize_tried b⟩

/-- Without conflicts each mapping takes one try. -/
theorem C84_prefixes_once (b : NsBuilder) (hb : b.Ok)
    (hd : (b.filter fun x => x.2.required).Pairwise fun x y => x.2.requested ≠ y.2.requested)
    (hn : ∀ x ∈ b, x.2.required = true → x.2.needsPrefix = true → x.2.requested ≠ "") : (Cost.finalize b).1 = b.length := by
  have h := Cost.passRequired_once [] b hd hn (fun x _ _ => rfl)
  obtain ⟨m, l, h1, -⟩ := passRequired_spec [] b (by simp [SMap.keys]) hb.2
  rw [← Cost.passRequired_value] at h1
  have h2 := Cost.passRequired_lengths [] b
  simp only [Cost.finalize]
  revert h h1 h2
  generalize Cost.passRequired [] b = q
  obtain ⟨n, q⟩ := q
  intro h h1 h2
  dsimp only at h1 h
  subst h1
  obtain ⟨h3, h4⟩ := h2 _ _ _ rfl
  have h5 := Cost.passInherited_tried m l
  dsimp only
  omega

/-- The bound is met: if all mappings ask for the same prefix, every number is tried again for each of them. -/
theorem C84_prefixes_worst (p : String) (hp : p ≠ "") (b : NsBuilder) (hb : ∀ x ∈ b, x.2.required = true ∧ x.2.requested = p) :
    2 * (Cost.finalize b).1 = b.length * (b.length + 1) := by
  have h := Cost.passRequired_worst p hp [] 0 ⟨rfl, fun h => absurd h (Nat.lt_irrefl 0), fun j h1 h2 => by omega, fun _ _ => rfl, fun _ => rfl⟩ b hb
  have h2 := Cost.passRequired_lengths [] b
  have h6 := Cost.required_all b fun x hx => (hb x hx).1
  have h7 : ∀ f n, Cost.passRequired [] b = (n, .error f) → (Cost.finalize b).1 = n := by
    intro f n h
    simp only [Cost.finalize, h]
  simp only [Cost.finalize] at h7 ⊢
  revert h h2 h7
  generalize Cost.passRequired [] b = q
  obtain ⟨n, _ | ⟨m, l⟩⟩ := q
  · intro h _ _
    simpa using h
  · intro h h2 _
    obtain ⟨h3, h4⟩ := h2 _ _ _ rfl
    have h5 := Cost.passInherited_tried m l
    dsimp only at h ⊢
    simp only [Nat.zero_mul, Nat.mul_zero, Nat.add_zero] at h
    omega

/-- Three namespaces that ask for the same prefix: `p` is tried three times, `p2` twice and `p3` once. -/
example : (Cost.finalize [("urn:a", ⟨"p", none, true, false⟩), ("urn:b", ⟨"p", none, true, false⟩), ("urn:c", ⟨"p", none, true, false⟩)]).1 = 6 := by
  have := C84_prefixes_worst "p" (by decide) [("urn:a", ⟨"p", none, true, false⟩), ("urn:b", ⟨"p", none, true, false⟩), ("urn:c", ⟨"p", none, true, false⟩)]
    (by intro x hx; simp at hx; rcases hx with rfl | rfl | rfl <;> exact ⟨rfl, rfl⟩)
  simp at this
  omega

/-- The types and the document of C18. -/
example : ∃ r, readTy true Ex.env (.strct 0) Ex.recDoc.input = .ok r ∧
    (Cost.read true (derivedVisitor Ex.env) (Cost.derivedEffort Ex.env) (fun _ => deserTy Ex.env (.strct 0)) Ex.recDoc.input).1.work ≤
      attributes Ex.recDoc.input.items * 3 + elements Ex.recDoc.input.items * (3 + 2 * 2) := by
  refine ⟨_, Ex.recDoc_read, ?_⟩
  have h := (C84_derived true Ex.env (.strct 0) Ex.recDoc.input 5 2 3 ?_ ?_ ?_).2 _ Ex.recDoc_read
  · simpa [digits] using h
  · intro i; simp only [Ex.env]; split <;> decide
  · intro i; simp only [Ex.env]; split <;> decide
  · intro i; simp only [Ex.env]; split <;> decide

end SX
