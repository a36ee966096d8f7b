import Verif.Proof.GenBase
import Verif.Proof.Open

/-
The code generated for a struct does what `Model/Open.lean` says.
-/
namespace SX.Gen
open SX.Open SX.Spec.Open SX.Spec.Gen

set_option linter.unusedSectionVars false

variable {σ τ α : Type}

def visVal : OCell τ α → VVal τ
  | .plain b _ => .flag b
  | .flat t => .visitor t

def memVal (f : GField) : OCell τ α → GCell α
  | .plain _ c => .own c
  | .flat _ => .lent (visName f)

/-- The record that stands for a list of cells. -/
def encode (fields : List GField) (cs : List (OCell τ α)) : GState τ α where
  vis := (fields.map visName).zip (cs.map visVal)
  mem := (fields.map fun f => f.ident).zip (List.zipWith memVal fields cs)

def mapOffer {τ τ' : Type} (enc : τ → τ') : Offer σ τ → Offer σ τ'
  | .back t => .back (enc t)
  | .take a => .take (a.map fun r => r.map fun (t, r) => (enc t, r))

theorem oG_element (types : String → TypeImpl σ τ α) {f : GField} {i : Nat} (h : f.mode = .element i) :
    oG types f = { name := f.name, kind := .element (types f.ty).field, default := if f.default then some (types f.ty).default else none } := by
  unfold oG; rw [h]

theorem oG_attribute (types : String → TypeImpl σ τ α) {f : GField} {i : Nat} (h : f.mode = .attribute i) :
    oG types f = { name := f.name, kind := .attribute (types f.ty).attr, default := if f.default then some (types f.ty).default else none } := by
  unfold oG; rw [h]

theorem oG_flatten (types : String → TypeImpl σ τ α) {f : GField} (h : f.mode = .flatten) :
    oG types f = { name := f.name, kind := .flatten (types f.ty).raw, default := if f.default then some (types f.ty).default else none } := by
  unfold oG; rw [h]

theorem visName_present {f : GField} (h : f.mode ≠ .flatten) : visName f = presentName f.ident := by
  unfold visName
  split <;> simp_all

theorem visName_visitor {f : GField} (h : f.mode = .flatten) : visName f = visitorName f.ident := by
  unfold visName; rw [h]

theorem zipWith_set {β γ δ : Type} (g : β → γ → δ) : ∀ (l : List β) (m : List γ) (p : Nat) (b : β) (c : γ), l[p]? = some b →
    List.zipWith g l (m.set p c) = (List.zipWith g l m).set p (g b c)
  | [], _, _, _, _, h => by simp at h
  | _ :: _, [], _, _, _, _ => by simp
  | a :: l, d :: m, 0, b, c, h => by simp at h; simp [h]
  | a :: l, d :: m, p + 1, b, c, h => by
    simp at h
    simp [zipWith_set g l m p b c h]

theorem set_same {β : Type} (k : String) (v : β) : ∀ l : List (String × β), get k l = some v → set k v l = l
  | [], _ => rfl
  | (k', v') :: l, h => by
    simp only [get] at h
    simp only [set]
    split
    · rename_i e
      simp only [e, if_true, Option.some.injEq] at h
      rw [h]
    · rename_i e
      simp only [e, if_false] at h
      rw [set_same k v l h]

section
variable {fields : List GField} (hn : (fields.map fun f => unraw f.ident).Nodup)
include hn

theorem enc_vis (cs : List (OCell τ α)) {p : Nat} {f : GField} (hf : fields[p]? = some f) :
    get (visName f) (encode fields cs).vis = cs[p]?.map visVal := by
  unfold encode
  simp only
  rw [get_zip _ _ p (visName f) (visNames_nodup hn) (by simp [hf]), List.getElem?_map]

theorem enc_mem (cs : List (OCell τ α)) {p : Nat} {f : GField} (hf : fields[p]? = some f) :
    get f.ident (encode fields cs).mem = cs[p]?.map (memVal f) := by
  unfold encode
  simp only
  rw [get_zip _ _ p f.ident (idents_nodup hn) (by simp [hf]), List.getElem?_zipWith, hf]
  cases cs[p]? <;> rfl

theorem enc_set (cs : List (OCell τ α)) {p : Nat} {f : GField} (hf : fields[p]? = some f) (c : OCell τ α) :
    encode fields (cs.set p c) =
      { vis := set (visName f) (visVal c) (encode fields cs).vis, mem := set f.ident (memVal f c) (encode fields cs).mem } := by
  unfold encode
  simp only [GState.mk.injEq]
  constructor
  · rw [set_zip _ _ _ p (visName f) (visNames_nodup hn) (by simp [hf]), List.map_set]
  · rw [set_zip _ _ _ p f.ident (idents_nodup hn) (by simp [hf])]
    congr 1
    exact zipWith_set _ _ _ _ _ _ hf

end

/-- The generated program of a struct. -/
def prg (types : String → TypeImpl σ τ α) (s : GStruct) (code : StructCode) : Prg σ τ α where
  code := code
  decl := s.fields.map fun f => (f.ident, f.ty)
  types := types

theorem finalizeStmts_ok : ∀ fs : List GField, (∀ f ∈ fs, f.mode ≠ .text) → ∃ l, finalizeStmts fs = .ok l
  | [], _ => ⟨_, rfl⟩
  | f :: fs, h => by
    obtain ⟨l, hl⟩ := finalizeStmts_ok fs fun g hg => h g (List.mem_cons_of_mem _ hg)
    have hf := h f List.mem_cons_self
    have : ∃ st, finalizeStmt f = .ok st := by
      unfold finalizeStmt
      cases hm : f.mode
      · exact ⟨_, rfl⟩
      · exact ⟨_, rfl⟩
      · exact absurd hm hf
      · exact ⟨_, rfl⟩
    obtain ⟨st, hst⟩ := this
    exact ⟨st :: l, by simp only [finalizeStmts, hst, hl]; rfl⟩

theorem visName_defs (s : GStruct) (h : ∀ f ∈ s.fields, f.mode ≠ .text) : visitorFieldDefinitions s =
    s.fields.map fun f => (visName f, if f.mode = .flatten then VisTy.visitor f.ty else VisTy.bool) := by
  unfold visitorFieldDefinitions
  revert h
  generalize s.fields = fs
  intro h
  induction fs with
  | nil => rfl
  | cons f fs ih =>
    have hf := h f List.mem_cons_self
    rw [List.filterMap_cons, List.map_cons, ← ih fun g hg => h g (List.mem_cons_of_mem _ hg)]
    unfold visName
    cases hm : f.mode <;> simp_all

theorem get_map_zip {β γ : Type} (k : β → String) (v : β → γ) (l : List β) : (l.map fun b => (k b, v b)) = (l.map k).zip (l.map v) := by
  induction l with
  | nil => rfl
  | cons a l ih => simp [ih]

section
variable {types : String → TypeImpl σ τ α} {s : GStruct} {code : StructCode} (G : Good types s)
  (hn : (s.fields.map fun f => unraw f.ident).Nodup) (hc : structCode s = .ok code)
include G hn hc

theorem code_eq : ∃ fin, finalizeStmts s.fields = .ok fin ∧ code = {
    visitorType := unraw s.ident ++ "Visitor", attributes := attributes s, elements := elements s, defs := visitorFieldDefinitions s,
    inits := visitorInitializers s, elementArms := elementArms s s.sortedElements 0,
    elementFall := if (flattenVisitors s).isEmpty then .back else .delegate (flattenVisitors s),
    attributeArms := attributeArms s s.sortedAttributes 0,
    attributeFall := if (flattenVisitors s).isEmpty then .back else .delegate (flattenVisitors s),
    characters := if !(flattenVisitors s).isEmpty then some (.delegate (flattenVisitors s)) else none, finalize := fin } := by
  obtain ⟨fin, hf⟩ := finalizeStmts_ok s.fields G.noText
  refine ⟨fin, hf, ?_⟩
  unfold structCode at hc
  rw [hf] at hc
  simp only [G.textPos, Except.ok.injEq] at hc
  rw [← hc]
  rfl

theorem typeOf_eq {p : Nat} {f : GField} (hf : s.fields[p]? = some f) : (prg types s code).typeOf f.ident = .ok (types f.ty) := by
  unfold Prg.typeOf prg
  simp only
  rw [get_map_zip, get_zip _ _ p f.ident (idents_nodup hn) (by simp [hf])]
  simp [hf]

theorem defs_eq {p : Nat} {f : GField} (hf : s.fields[p]? = some f) :
    get (visName f) code.defs = some (if f.mode = .flatten then VisTy.visitor f.ty else VisTy.bool) := by
  obtain ⟨fin, _, he⟩ := code_eq G hn hc
  have : code.defs = visitorFieldDefinitions s := by rw [he]
  rw [this, visName_defs s G.noText, get_map_zip, get_zip _ _ p (visName f) (visNames_nodup hn) (by simp [hf])]
  simp [hf]

theorem visitor_eq (cs : List (OCell τ α)) {p : Nat} {f : GField} (hf : s.fields[p]? = some f) (hm : f.mode = .flatten) :
    (prg types s code).visitor (encode s.fields cs) (visitorName f.ident) =
      match cs[p]? with
      | some (.flat t) => .ok ((types f.ty).raw, t)
      | _ => .error .panic := by
  unfold Prg.visitor
  rw [← visName_visitor hm, show (prg types s code).code = code from rfl, defs_eq G hn hc hf, enc_vis hn cs hf, if_pos hm]
  rcases cs[p]? with _ | ⟨_ | _⟩ <;> rfl

theorem setVisitor_eq (cs : List (OCell τ α)) {p : Nat} {f : GField} (hf : s.fields[p]? = some f) (hm : f.mode = .flatten) {t : τ}
    (ht : cs[p]? = some (.flat t)) (t' : τ) :
    (encode s.fields cs).setVisitor (visitorName f.ident) t' = encode s.fields (cs.set p (.flat t')) := by
  rw [enc_set hn cs hf]
  unfold GState.setVisitor
  rw [← visName_visitor hm]
  simp only [GState.mk.injEq]
  refine ⟨rfl, (set_same _ _ _ ?_).symm⟩
  rw [enc_mem hn cs hf, ht]
  rfl


/-- The name of the visitor of the flattened field at a position. -/
def flatName (fields : List GField) (p : Nat) : String :=
  match fields[p]? with
  | some f => visitorName f.ident
  | none => ""

omit hn hc in
theorem flatVisitors_eq : flattenVisitors s = (flatPos (s.fields.map (oG types)) 0).map (flatName s.fields) ∧
    ∀ p ∈ flatPos (s.fields.map (oG types)) 0, ∃ f, s.fields[p]? = some f ∧ f.mode = .flatten := by
  have hT := G.noText
  unfold flattenVisitors
  have key : ∀ (fs pre : List GField), s.fields = pre ++ fs →
      (fs.filterMap fun f => if f.mode = .flatten then some (visitorName f.ident) else none) =
        (flatPos (fs.map (oG types)) pre.length).map (flatName s.fields) ∧
      ∀ p ∈ flatPos (fs.map (oG types)) pre.length, ∃ f, s.fields[p]? = some f ∧ f.mode = .flatten := by
    intro fs
    induction fs with
    | nil => intro pre _; exact ⟨rfl, by simp [flatPos]⟩
    | cons f fs ih =>
      intro pre h
      obtain ⟨h1, h2⟩ := ih (pre ++ [f]) (by rw [h]; simp)
      simp only [List.length_append, List.length_cons, List.length_nil] at h1 h2
      have hf : s.fields[pre.length]? = some f := by rw [h]; simp
      by_cases hm : f.mode = .flatten
      · simp only [List.filterMap_cons, hm, if_true, List.map_cons, flatPos, oG_flatten types hm]
        refine ⟨by rw [h1]; simp [flatName, hf], ?_⟩
        intro p hp
        rcases List.mem_cons.mp hp with rfl | hp
        · exact ⟨f, hf, hm⟩
        · exact h2 p hp
      · have hk : flatPos ((f :: fs).map (oG types)) pre.length = flatPos (fs.map (oG types)) (pre.length + 1) := by
          simp only [List.map_cons, flatPos]
          have hne := hT f (by rw [h]; simp)
          cases hx : f.mode with
          | element i => rw [oG_element types hx]
          | «attribute» i => rw [oG_attribute types hx]
          | flatten => exact absurd hx hm
          | text => exact absurd hx hne
        rw [hk]
        simp only [List.filterMap_cons, hm, if_false]
        exact ⟨h1, h2⟩
  exact key s.fields [] rfl

theorem delegateElement_eq (info : ElemInfo) : ∀ (ps : List Nat) (cs : List (OCell τ α)),
    (∀ p ∈ ps, ∃ f, s.fields[p]? = some f ∧ f.mode = .flatten) →
    (prg types s code).delegateElement info (ps.map (flatName s.fields)) (encode s.fields cs) =
      (Open.delegateElement (s.fields.map (oG types)) info ps cs).map (mapOffer (encode s.fields))
  | [], cs, _ => rfl
  | p :: ps, cs, h => by
    obtain ⟨f, hf, hm⟩ := h p List.mem_cons_self
    have ih := fun cs => delegateElement_eq info ps cs fun q hq => h q (List.mem_cons_of_mem _ hq)
    simp only [List.map_cons, Prg.delegateElement, Open.delegateElement, List.getElem?_map, hf, Option.map_some, oG_flatten types hm]
    rw [show flatName s.fields p = visitorName f.ident by simp [flatName, hf], visitor_eq G hn hc cs hf hm]
    rcases hcs : cs[p]? with _ | ⟨b, c⟩ | t
    · rfl
    · rfl
    · simp only
      cases (types f.ty).raw.element t info with
      | error e => rfl
      | ok o =>
        cases o with
        | back t' =>
          simp only
          rw [setVisitor_eq G hn hc cs hf hm hcs, ih]
        | take a =>
          simp only [Except.map, mapOffer]
          congr 2
          cases a with
          | done r => cases r <;> simp [Action.map, Except.map, setVisitor_eq G hn hc cs hf hm hcs]
          | readString k =>
            simp only [Action.map, Action.readString.injEq]
            funext x
            cases k x <;> simp [Except.map, setVisitor_eq G hn hc cs hf hm hcs]
          | readTo sub k =>
            simp only [Action.map, Action.readTo.injEq, true_and]
            funext x y
            cases k x y <;> simp [Except.map, setVisitor_eq G hn hc cs hf hm hcs]

theorem delegateAttribute_eq (n : EName) : ∀ (ps : List Nat) (cs : List (OCell τ α)) (value : String),
    (∀ p ∈ ps, ∃ f, s.fields[p]? = some f ∧ f.mode = .flatten) →
    (prg types s code).delegateAttribute n (ps.map (flatName s.fields)) (encode s.fields cs) value =
      (Open.delegateAttribute (s.fields.map (oG types)) n ps cs value).map fun x => (encode s.fields x.1, x.2)
  | [], cs, _, _ => rfl
  | p :: ps, cs, value, h => by
    obtain ⟨f, hf, hm⟩ := h p List.mem_cons_self
    have ih := fun cs v => delegateAttribute_eq n ps cs v fun q hq => h q (List.mem_cons_of_mem _ hq)
    simp only [List.map_cons, Prg.delegateAttribute, Open.delegateAttribute, List.getElem?_map, hf, Option.map_some, oG_flatten types hm]
    rw [show flatName s.fields p = visitorName f.ident by simp [flatName, hf], visitor_eq G hn hc cs hf hm]
    rcases hcs : cs[p]? with _ | ⟨b, c⟩ | t
    · rfl
    · rfl
    · simp only
      rcases (types f.ty).raw.attr t n value with e | ⟨t', (_ | _) | _⟩ <;>
        simp [Except.map, setVisitor_eq G hn hc cs hf hm hcs, ih]

theorem delegateCharacters_eq (pos : Pos) : ∀ (ps : List Nat) (cs : List (OCell τ α)) (value : String),
    (∀ p ∈ ps, ∃ f, s.fields[p]? = some f ∧ f.mode = .flatten) →
    (prg types s code).delegateCharacters pos (ps.map (flatName s.fields)) (encode s.fields cs) value =
      (Open.delegateCharacters (s.fields.map (oG types)) pos ps cs value).map fun x => (encode s.fields x.1, x.2)
  | [], cs, _, _ => rfl
  | p :: ps, cs, value, h => by
    obtain ⟨f, hf, hm⟩ := h p List.mem_cons_self
    have ih := fun cs v => delegateCharacters_eq pos ps cs v fun q hq => h q (List.mem_cons_of_mem _ hq)
    simp only [List.map_cons, Prg.delegateCharacters, Open.delegateCharacters, List.getElem?_map, hf, Option.map_some, oG_flatten types hm]
    rw [show flatName s.fields p = visitorName f.ident by simp [flatName, hf], visitor_eq G hn hc cs hf hm]
    rcases hcs : cs[p]? with _ | ⟨b, c⟩ | t
    · rfl
    · rfl
    · simp only
      rcases (types f.ty).raw.characters t value pos with e | ⟨t', (_ | _) | _⟩ <;>
        simp [Except.map, setVisitor_eq G hn hc cs hf hm hcs, ih]


omit G hn hc in
theorem firstArm_element (g : GState τ α) {p : Nat} {f : GField} (hf : s.fields[p]? = some f) : ∀ (ps : List Nat) (k j : Nat), ps[j]? = some p →
    firstArm ElemArm.index ElemArm.guard g (k + j) (elementArms s ps k) =
      match g.flag (presentName f.ident) with
      | .error e => .error e
      | .ok true => .ok (some { index := k + j, guard := some (presentName f.ident), body := [.update f.ident] })
      | .ok false => .ok (some { index := k + j, guard := none, body := [.writeInit f.ident, .set (presentName f.ident)] })
  | [], _, _, h => by simp at h
  | q :: ps, k, 0, h => by
    simp only [List.getElem?_cons_zero, Option.some.injEq] at h
    subst h
    simp only [elementArms, hf, firstArm, Nat.add_zero, if_true]
    rcases g.flag (presentName f.ident) with _ | ⟨_ | _⟩ <;> rfl
  | q :: ps, k, j + 1, h => by
    simp only [List.getElem?_cons_succ] at h
    have ih := firstArm_element g hf ps (k + 1) j h
    rw [show k + 1 + j = k + (j + 1) by omega] at ih
    simp only [elementArms]
    split
    · exact ih
    · simp only [firstArm, show ¬ k = k + (j + 1) by omega, if_false]
      exact ih

omit G hn hc in
theorem firstArm_attribute (g : GState τ α) {p : Nat} {f : GField} (hf : s.fields[p]? = some f) : ∀ (ps : List Nat) (k j : Nat), ps[j]? = some p →
    firstArm AttrArm.index AttrArm.guard g (k + j) (attributeArms s ps k) =
      match g.flag (presentName f.ident) with
      | .error e => .error e
      | .ok true => .ok (some { index := k + j, guard := some (presentName f.ident), body := [], tail := .duplicate })
      | .ok false => .ok (some { index := k + j, guard := none, body := [.writeInit f.ident, .set (presentName f.ident)], tail := .taken })
  | [], _, _, h => by simp at h
  | q :: ps, k, 0, h => by
    simp only [List.getElem?_cons_zero, Option.some.injEq] at h
    subst h
    simp only [attributeArms, hf, firstArm, Nat.add_zero, if_true]
    rcases g.flag (presentName f.ident) with _ | ⟨_ | _⟩ <;> rfl
  | q :: ps, k, j + 1, h => by
    simp only [List.getElem?_cons_succ] at h
    have ih := firstArm_attribute g hf ps (k + 1) j h
    rw [show k + 1 + j = k + (j + 1) by omega] at ih
    simp only [attributeArms]
    split
    · exact ih
    · simp only [firstArm, show ¬ k = k + (j + 1) by omega, if_false]
      exact ih

omit G hc in
theorem flag_eq (cs : List (OCell τ α)) {p : Nat} {f : GField} (hf : s.fields[p]? = some f) (hm : f.mode ≠ .flatten) :
    (encode s.fields cs).flag (presentName f.ident) =
      match cs[p]? with
      | some (.plain b _) => .ok b
      | _ => .error .panic := by
  unfold GState.flag
  rw [← visName_present hm, enc_vis hn cs hf]
  rcases cs[p]? with _ | ⟨_ | _⟩ <;> rfl

omit G hc in
theorem cell_eq (cs : List (OCell τ α)) {p : Nat} {f : GField} (hf : s.fields[p]? = some f) {b : Bool} {c : Option α}
    (h : cs[p]? = some (.plain b c)) : (encode s.fields cs).cell f.ident = .ok c := by
  unfold GState.cell
  rw [enc_mem hn cs hf, h]
  rfl

omit G hc in
theorem setCell_eq (cs : List (OCell τ α)) {p : Nat} {f : GField} (hf : s.fields[p]? = some f) (hm : f.mode ≠ .flatten) {b : Bool}
    {c : Option α} (h : cs[p]? = some (.plain b c)) (c' : Option α) :
    (encode s.fields cs).setCell f.ident c' = encode s.fields (cs.set p (.plain b c')) := by
  rw [enc_set hn cs hf]
  unfold GState.setCell
  simp only [GState.mk.injEq]
  refine ⟨(set_same _ _ _ ?_).symm, rfl⟩
  rw [enc_vis hn cs hf, h]
  rfl

omit G hc in
theorem setFlag_eq (cs : List (OCell τ α)) {p : Nat} {f : GField} (hf : s.fields[p]? = some f) (hm : f.mode ≠ .flatten) {b : Bool}
    {c : Option α} (h : cs[p]? = some (.plain b c)) :
    (encode s.fields cs).setFlag (presentName f.ident) = .ok (encode s.fields (cs.set p (.plain true c))) := by
  rw [enc_set hn cs hf]
  unfold GState.setFlag
  rw [← visName_present hm, enc_vis hn cs hf, h]
  simp only [Option.map_some, visVal, Except.ok.injEq, GState.mk.injEq, true_and]
  refine (set_same _ _ _ ?_).symm
  rw [enc_mem hn cs hf, h]
  rfl

omit G hc in
theorem write_eq (cs : List (OCell τ α)) {p : Nat} {f : GField} (hf : s.fields[p]? = some f) (hm : f.mode ≠ .flatten) {b : Bool}
    {c : Option α} (h : cs[p]? = some (.plain b c)) (v : α) :
    (encode s.fields cs).write f.ident v = (Open.write c v).map fun c => encode s.fields (cs.set p (.plain b c)) := by
  unfold GState.write
  rw [cell_eq hn cs hf h]
  cases c <;> simp [Open.write, Except.map, setCell_eq hn cs hf hm h]

omit G hn hc in
theorem lt_of_get {cs : List (OCell τ α)} {p : Nat} {c : OCell τ α} (h : cs[p]? = some c) : p < cs.length :=
  (List.getElem?_eq_some_iff.mp h).1

theorem elementFall_eq (cs : List (OCell τ α)) (info : ElemInfo) :
    (prg types s code).elementFall (encode s.fields cs) info =
    (Open.delegateElement (s.fields.map (oG types)) info (flatPos (s.fields.map (oG types)) 0) cs).map (mapOffer (encode s.fields)) := by
  obtain ⟨fin, _, he⟩ := code_eq G hn hc
  obtain ⟨h1, h2⟩ := flatVisitors_eq G
  rw [← delegateElement_eq G hn hc info _ cs h2, ← h1]
  unfold Prg.elementFall
  have : (prg types s code).code.elementFall = if (flattenVisitors s).isEmpty then .back else .delegate (flattenVisitors s) := by
    rw [show (prg types s code).code = code from rfl, he]
  rw [this]
  cases flattenVisitors s <;> rfl

theorem attributeFall_eq (cs : List (OCell τ α)) (n : EName) (value : String) :
    (prg types s code).attributeFall (encode s.fields cs) n value =
    (Open.delegateAttribute (s.fields.map (oG types)) n (flatPos (s.fields.map (oG types)) 0) cs value).map
      fun x => (encode s.fields x.1, x.2) := by
  obtain ⟨fin, _, he⟩ := code_eq G hn hc
  obtain ⟨h1, h2⟩ := flatVisitors_eq G
  rw [← delegateAttribute_eq G hn hc n _ cs value h2, ← h1]
  unfold Prg.attributeFall
  have : (prg types s code).code.attributeFall = if (flattenVisitors s).isEmpty then .back else .delegate (flattenVisitors s) := by
    rw [show (prg types s code).code = code from rfl, he]
  rw [this]
  cases flattenVisitors s <;> rfl

theorem characters_eq (cs : List (OCell τ α)) (v : String) (pos : Pos) :
    (prg types s code).characters (encode s.fields cs) v pos =
      (Open.delegateCharacters (s.fields.map (oG types)) pos (flatPos (s.fields.map (oG types)) 0) cs v).map
        fun x => (encode s.fields x.1, x.2) := by
  obtain ⟨fin, _, he⟩ := code_eq G hn hc
  obtain ⟨h1, h2⟩ := flatVisitors_eq G
  rw [← delegateCharacters_eq G hn hc pos _ cs v h2, ← h1]
  unfold Prg.characters
  have : (prg types s code).code.characters = if !(flattenVisitors s).isEmpty then some (.delegate (flattenVisitors s)) else none := by
    rw [show (prg types s code).code = code from rfl, he]
  rw [this]
  cases flattenVisitors s <;> rfl

theorem element_eq (cs : List (OCell τ α)) (info : ElemInfo) :
    (prg types s code).element (encode s.fields cs) info =
      (Open.structElement (s.fields.map (oG types)) cs info).map (mapOffer (encode s.fields)) := by
  obtain ⟨fin, _, he⟩ := code_eq G hn hc
  unfold Prg.element Open.structElement
  simp only [show (prg types s code).code = code from rfl]
  rw [elementFall_eq G hn hc cs info]
  have h1 : code.elements = s.sortedElements.map (nameAt s.fields) := by rw [he]; rfl
  have h2 : code.elementArms = elementArms s s.sortedElements 0 := by rw [he]
  unfold lookup
  rw [G.elemTable, h1, h2, List.map_map, show (Prod.snd ∘ fun p : Nat => (p, nameAt s.fields p)) = nameAt s.fields from rfl]
  obtain ⟨r, hr, hb⟩ := find_total (s.sortedElements.map (nameAt s.fields)) info.name.expanded
  rw [hr]
  cases r with
  | none => rfl
  | some i =>
    have hi := hb i rfl
    simp only [List.length_map] at hi
    obtain ⟨p, hp⟩ : ∃ p, s.sortedElements[i]? = some p := ⟨_, List.getElem?_eq_getElem hi⟩
    obtain ⟨f, hf, hm⟩ := G.elem i p hp
    have hnf : f.mode ≠ .flatten := by rw [hm]; simp
    have := firstArm_element (encode s.fields cs) hf s.sortedElements 0 i hp
    rw [Nat.zero_add] at this
    simp only [this, List.getElem?_map, hp, hf, Option.map_some, flag_eq hn cs hf hnf, oG_element types hm]
    rcases hcs : cs[p]? with _ | ⟨b, c⟩ | t
    · rfl
    · cases b with
      | true =>
        simp only [Prg.runBody, typeOf_eq G hn hc hf, cell_eq hn cs hf hcs, if_true]
        cases c with
        | none => rfl
        | some v =>
          simp only [Except.map, mapOffer]
          congr 2
          cases (types f.ty).field.update v info with
          | done r =>
            rcases r with ⟨v', _ | _ | _⟩ <;> simp [Action.map, setCell_eq hn cs hf hnf hcs, runRest]
          | readString k =>
            simp only [Action.map, Action.readString.injEq]
            funext x
            rcases k x with ⟨v', _ | _ | _⟩ <;> simp [setCell_eq hn cs hf hnf hcs, runRest]
          | readTo sub k =>
            simp only [Action.map, Action.readTo.injEq, true_and]
            funext x y
            rcases k x y with ⟨v', _ | _ | _⟩ <;> simp [setCell_eq hn cs hf hnf hcs, runRest]
      | false =>
        have hl := lt_of_get hcs
        have key : ∀ v, (match (encode s.fields cs).write f.ident v with
            | .error f => .error f
            | .ok g => runRest [.set (presentName f.ident)] g) =
            Except.map (fun x : List (OCell τ α) × Ret VErr Unit => (encode s.fields x.1, x.2))
              ((Open.write c v).map fun c => (cs.set p (.plain true c), .ok ())) := by
          intro v
          rw [write_eq hn cs hf hnf hcs]
          cases hw : Open.write c v with
          | error e => rfl
          | ok c' =>
            simp only [Except.map, runRest]
            rw [setFlag_eq hn (cs.set p (.plain false c')) hf hnf (b := false) (c := c') (by simp [hl])]
            simp
        simp only [Prg.runBody, typeOf_eq G hn hc hf, Bool.false_eq_true, if_false]
        simp only [Except.map, mapOffer]
        congr 2
        cases (types f.ty).field.init info with
        | done r =>
          rcases r with v | e | _
          · exact congrArg Action.done (key v)
          · rfl
          · rfl
        | readString k =>
          simp only [Action.map, Action.readString.injEq]
          funext x
          rcases k x with v | e | _
          · exact key v
          · rfl
          · rfl
        | readTo sub k =>
          simp only [Action.map, Action.readTo.injEq, true_and]
          funext x y
          rcases k x y with v | e | _
          · exact key v
          · rfl
          · rfl
    · rfl

theorem attribute_eq (cs : List (OCell τ α)) (n : EName) (value : String) :
    (prg types s code).attribute (encode s.fields cs) n value =
      (Open.structAttribute (s.fields.map (oG types)) cs n value).map fun x => (encode s.fields x.1, x.2) := by
  obtain ⟨fin, _, he⟩ := code_eq G hn hc
  unfold Prg.attribute Open.structAttribute
  simp only [show (prg types s code).code = code from rfl]
  rw [attributeFall_eq G hn hc cs n value]
  have h1 : code.attributes = s.sortedAttributes.map (nameAt s.fields) := by rw [he]; rfl
  have h2 : code.attributeArms = attributeArms s s.sortedAttributes 0 := by rw [he]
  unfold lookup
  rw [G.attrTable, h1, h2, List.map_map, show (Prod.snd ∘ fun p : Nat => (p, nameAt s.fields p)) = nameAt s.fields from rfl]
  obtain ⟨r, hr, hb⟩ := find_total (s.sortedAttributes.map (nameAt s.fields)) n
  rw [hr]
  cases r with
  | none => rfl
  | some i =>
    have hi := hb i rfl
    simp only [List.length_map] at hi
    obtain ⟨p, hp⟩ : ∃ p, s.sortedAttributes[i]? = some p := ⟨_, List.getElem?_eq_getElem hi⟩
    obtain ⟨f, hf, hm⟩ := G.attr i p hp
    have hnf : f.mode ≠ .flatten := by rw [hm]; simp
    have := firstArm_attribute (encode s.fields cs) hf s.sortedAttributes 0 i hp
    rw [Nat.zero_add] at this
    simp only [this, List.getElem?_map, hp, hf, Option.map_some, flag_eq hn cs hf hnf, oG_attribute types hm]
    rcases hcs : cs[p]? with _ | ⟨b, c⟩ | t
    · rfl
    · cases b with
      | true => rfl
      | false =>
        have hl := lt_of_get hcs
        simp only [Prg.runAttr, typeOf_eq G hn hc hf, Bool.false_eq_true, if_false]
        rcases (types f.ty).attr.init value with v | e | _
        · simp only
          rw [write_eq hn cs hf hnf hcs]
          cases hw : Open.write c v with
          | error e => rfl
          | ok c' =>
            simp only [Except.map, Prg.runAttr]
            rw [setFlag_eq hn (cs.set p (.plain false c')) hf hnf (b := false) (c := c') (by simp [hl])]
            simp
        · rfl
        · rfl
    · rfl


omit G hn hc in
theorem set_self {β : Type} {l : List β} {p : Nat} {x : β} (h : l[p]? = some x) : l.set p x = l := by
  apply List.ext_getElem?
  intro q
  rw [List.getElem?_set]
  split
  · subst_vars
    obtain ⟨hp, _⟩ := List.getElem?_eq_some_iff.mp h
    simp [hp, ← h]
  · rfl

theorem runFin_eq (cs : List (OCell τ α)) {p : Nat} {f : GField} (hf : s.fields[p]? = some f) {st : FinStmt} (hst : finalizeStmt f = .ok st) :
    (prg types s code).runFin (encode s.fields cs) st =
      match cs[p]? with
      | none => .error .panic
      | some c => (finalizeCell (oG types f) c).map fun x => (encode s.fields (cs.set p x.1), x.2) := by
  obtain ⟨fin, _, he⟩ := code_eq G hn hc
  have hname : nameAt s.fields p = f.name.expanded := by unfold nameAt; rw [hf]
  have plainCase : ∀ (hnf : f.mode ≠ .flatten) (v : ValExpr) (o : OField σ τ α) (m : Ret VErr α),
      (prg types s code).value v = .ok (match o.default with
        | some (.ok d) => .ok d
        | some _ => .panic
        | none => m) →
      ∀ b c, cs[p]? = some (.plain b c) →
      (prg types s code).runFin (encode s.fields cs) (.writeIfNot (presentName f.ident) f.ident v) =
        (finalizeCell.plain o b c m).map fun x => (encode s.fields (cs.set p x.1), x.2) := by
    intro hnf v o m hv b c hcs
    simp only [Prg.runFin, flag_eq hn cs hf hnf, hcs, finalizeCell.plain]
    cases b with
    | true => simp [Except.map, set_self hcs]
    | false =>
      simp only [hv, Bool.false_eq_true, if_false]
      have done : ∀ v : α, ((encode s.fields cs).write f.ident v).map (fun g => (g, (Ret.ok () : Ret VErr Unit))) =
          ((Open.write c v).map fun c => ((OCell.plain false c : OCell τ α), (Ret.ok () : Ret VErr Unit))).map
            fun x => (encode s.fields (cs.set p x.1), x.2) := by
        intro v
        rw [write_eq hn cs hf hnf hcs]
        cases Open.write c v <;> rfl
      rcases hd : o.default with _ | d | e | _
      · rcases m with v | e | _
        · exact done v
        · simp [Except.map, set_self hcs]
        · simp [Except.map, set_self hcs]
      · exact done d
      · exact e.elim
      · simp [Except.map, set_self hcs]
  have notPlain : ∀ (hnf : f.mode ≠ .flatten) (v : ValExpr), (∀ b c, cs[p]? ≠ some (.plain b c)) →
      (prg types s code).runFin (encode s.fields cs) (.writeIfNot (presentName f.ident) f.ident v) = .error .panic := by
    intro hnf v hne
    simp only [Prg.runFin, flag_eq hn cs hf hnf]
  cases hm : f.mode with
  | element i =>
    have hnf : f.mode ≠ .flatten := by rw [hm]; simp
    unfold finalizeStmt at hst
    rw [hm] at hst
    simp only [Except.ok.injEq] at hst
    subst hst
    have hv : (prg types s code).value (if f.default = true then .default f.ty else .missingElement f.ty i) =
        .ok (match (oG types f).default with
          | some (.ok d) => .ok d
          | some _ => .panic
          | none => (types f.ty).field.missing f.name.expanded) := by
      have h1 : (prg types s code).code.elements[i]? = some f.name.expanded := by
        rw [show (prg types s code).code = code from rfl, show code.elements = s.sortedElements.map (nameAt s.fields) by rw [he]; rfl,
          List.getElem?_map, G.elemBack p f i hf hm, Option.map_some, hname]
      rw [oG_element types hm]
      cases f.default
      · simp only [Bool.false_eq_true, if_false, Prg.value, h1]
        rfl
      · simp only [if_true, Prg.value]
        rcases h : (types f.ty).default with d | e | _ <;> simp [prg, h]
    rcases hcs : cs[p]? with _ | ⟨b, c⟩ | t
    · exact notPlain hnf _ (by simp [hcs])
    · rw [plainCase hnf _ (oG types f) _ hv b c hcs]
      simp only [finalizeCell, oG_element types hm]
    · rw [notPlain hnf _ (by simp [hcs])]
      simp only [finalizeCell, oG_element types hm]
      rfl
  | «attribute» i =>
    have hnf : f.mode ≠ .flatten := by rw [hm]; simp
    unfold finalizeStmt at hst
    rw [hm] at hst
    simp only [Except.ok.injEq] at hst
    subst hst
    have hv : (prg types s code).value (if f.default = true then .default f.ty else .missingAttribute f.ty i) =
        .ok (match (oG types f).default with
          | some (.ok d) => .ok d
          | some _ => .panic
          | none => (types f.ty).attr.missing f.name.expanded) := by
      have h1 : (prg types s code).code.attributes[i]? = some f.name.expanded := by
        rw [show (prg types s code).code = code from rfl, show code.attributes = s.sortedAttributes.map (nameAt s.fields) by rw [he]; rfl,
          List.getElem?_map, G.attrBack p f i hf hm, Option.map_some, hname]
      rw [oG_attribute types hm]
      cases f.default
      · simp only [Bool.false_eq_true, if_false, Prg.value, h1]
        rfl
      · simp only [if_true, Prg.value]
        rcases h : (types f.ty).default with d | e | _ <;> simp [prg, h]
    rcases hcs : cs[p]? with _ | ⟨b, c⟩ | t
    · exact notPlain hnf _ (by simp [hcs])
    · rw [plainCase hnf _ (oG types f) _ hv b c hcs]
      simp only [finalizeCell, oG_attribute types hm]
    · rw [notPlain hnf _ (by simp [hcs])]
      simp only [finalizeCell, oG_attribute types hm]
      rfl
  | flatten =>
    unfold finalizeStmt at hst
    rw [hm] at hst
    simp only [Except.ok.injEq] at hst
    subst hst
    simp only [Prg.runFin]
    rw [← visName_visitor hm, enc_vis hn cs hf, visName_visitor hm]
    rcases hcs : cs[p]? with _ | ⟨b, c⟩ | t
    · rfl
    · simp only [finalizeCell, oG_flatten types hm, Option.map_some, visVal]
      rfl
    · simp only [finalizeCell, oG_flatten types hm, Option.map_some, visVal]
      have hd : Option.map (fun d => ((prg types s code).types d).default) (if f.default = true then some f.ty else none) =
          if f.default = true then some (types f.ty).default else none := by
        cases f.default <;> rfl
      rw [hd, show (prg types s code).types = types from rfl]
      generalize (types f.ty).raw.finalize t _ = r
      cases r with
      | error e => rfl
      | ok x => simp [Except.map, setVisitor_eq G hn hc cs hf hm hcs]
  | text => exact absurd hm (G.noText f (List.mem_of_getElem? hf))

omit G hn hc in
theorem encode_trunc (fields : List GField) (l cs : List (OCell τ α)) (h : l.length = fields.length) :
    encode fields (l ++ cs) = encode fields l := by
  have key : ∀ {β γ δ : Type} (g : β → γ → δ) (a : List β) (b c : List γ), b.length = a.length →
      List.zipWith g a (b ++ c) = List.zipWith g a b := by
    intro β γ δ g a
    induction a with
    | nil => intro b c _; simp
    | cons x a ih =>
      intro b c hb
      cases b with
      | nil => simp at hb
      | cons y b => simp [ih b c (by simpa using hb)]
  unfold encode
  simp only [GState.mk.injEq, List.map_append, List.zip]
  refine ⟨key _ _ _ _ (by simp [h]), ?_⟩
  rw [key _ fields l cs h]

theorem finalize_suffix : ∀ (fs pre : List GField) (stmts : List FinStmt) (l cs : List (OCell τ α)), s.fields = pre ++ fs → l.length = pre.length →
    finalizeStmts fs = .ok stmts →
    (prg types s code).finalize stmts (encode s.fields (l ++ cs)) =
      (finalizeCells (fs.map (oG types)) cs).map fun x => (encode s.fields (l ++ x.1), x.2)
  | [], pre, stmts, l, cs, h, hl, hs => by
    simp only [finalizeStmts, Except.ok.injEq] at hs
    subst hs
    simp only [Prg.finalize, List.map_nil, finalizeCells, Except.map, List.append_nil]
    rw [encode_trunc s.fields l cs (by rw [hl, h]; simp)]
  | f :: fs, pre, stmts, l, cs, h, hl, hs => by
    have hf : s.fields[l.length]? = some f := by rw [h, hl]; simp
    simp only [finalizeStmts] at hs
    split at hs
    · cases hs
    · rename_i st hst
      rcases hfs : finalizeStmts fs with e | rest
      · rw [hfs] at hs; cases hs
      · rw [hfs] at hs
        simp only [Except.map, Except.ok.injEq] at hs
        subst hs
        simp only [Prg.finalize, runFin_eq G hn hc (l ++ cs) hf hst]
        cases cs with
        | nil =>
          simp only [List.map_cons, finalizeCells]
          simp
          rfl
        | cons c cs =>
          simp only [List.map_cons, finalizeCells]
          rw [show (l ++ c :: cs)[l.length]? = some c by simp]
          simp only
          rcases finalizeCell (oG types f) c with e | ⟨c', r⟩
          · rfl
          · have hset : (l ++ c :: cs).set l.length c' = (l ++ [c']) ++ cs := by simp
            simp only [Except.map, hset]
            rcases r with _ | e | _
            · have ih := finalize_suffix fs (pre ++ [f]) rest (l ++ [c']) cs (by rw [h]; simp) (by simp [hl]) hfs
              simp only [ih]
              cases finalizeCells (fs.map (oG types)) cs with
              | error e => rfl
              | ok x => simp [Except.map]
            · simp
            · simp

theorem finalize_eq (cs : List (OCell τ α)) :
    (prg types s code).finalize code.finalize (encode s.fields cs) =
      (finalizeCells (s.fields.map (oG types)) cs).map fun x => (encode s.fields x.1, x.2) := by
  obtain ⟨fin, hf, he⟩ := code_eq G hn hc
  rw [show code.finalize = fin by rw [he]]
  exact finalize_suffix G hn hc s.fields [] fin [] cs rfl rfl hf

/-- A field of a new visitor. -/
def fresh (types : String → TypeImpl σ τ α) (f : GField) : OCell τ α := newCell (oG types f)

theorem init_suffix : ∀ (fs pre : List GField), s.fields = pre ++ fs →
    (prg types s code).init (visitorInitializers { s with fields := fs })
      { vis := pre.map fun f => (visName f, visVal (fresh types f)),
        mem := (s.fields.map fun f => f.ident).zip ((pre.map fun f => memVal f (fresh types f)) ++ fs.map fun _ => .own none) } =
      .ok (encode s.fields (s.fields.map (fresh types)))
  | [], pre, h => by
    simp only [visitorInitializers, List.map_nil, Prg.init, List.append_nil]
    rw [List.append_nil] at h
    subst h
    unfold encode
    congr 2
    · rw [get_map_zip, List.map_map]; rfl
    · congr 1
      generalize s.fields = fs
      induction fs with
      | nil => rfl
      | cons f fs ih => simp [ih]
  | f :: fs, pre, h => by
    have ih := init_suffix fs (pre ++ [f]) (by rw [h]; simp)
    have hf : s.fields[pre.length]? = some f := by rw [h]; simp
    have hT := G.noText f (List.mem_of_getElem? hf)
    by_cases hm : f.mode = .flatten
    · have h1 : visitorInitializers { s with fields := f :: fs } =
          (visName f, .newVisitor f.ty f.ident) :: visitorInitializers { s with fields := fs } := by
        simp [visitorInitializers, hm, visName_visitor hm]
      have h2 : fresh types f = .flat (types f.ty).raw.new := by
        unfold fresh newCell; rw [oG_flatten types hm]
      rw [h1]
      simp only [Prg.init]
      rw [get_zip _ _ pre.length f.ident (idents_nodup hn) (by simp [hf])]
      simp only [List.length_map, List.getElem?_append_right, Nat.le_refl, Nat.sub_self, List.map_cons, List.getElem?_cons_zero]
      rw [set_zip _ _ _ pre.length f.ident (idents_nodup hn) (by simp [hf])]
      simp only [List.length_map, List.set_append_right, Nat.le_refl, Nat.sub_self, List.set_cons_zero]
      rw [← ih]
      simp [h2, visVal, memVal, show (prg types s code).types = types from rfl]
    · have h1 : visitorInitializers { s with fields := f :: fs } =
          (visName f, .false) :: visitorInitializers { s with fields := fs } := by
        rw [visName_present hm]
        unfold visitorInitializers
        simp only [List.map_cons]
      have h2 : fresh types f = .plain false none := by
        unfold fresh newCell
        cases hx : f.mode with
        | element i => rw [oG_element types hx]
        | «attribute» i => rw [oG_attribute types hx]
        | flatten => exact absurd hx hm
        | text => exact absurd hx hT
      rw [h1]
      simp only [Prg.init]
      rw [← ih]
      simp [h2, visVal, memVal]

theorem new_eq : (prg types s code).new = .ok (encode s.fields (s.fields.map (fresh types))) := by
  obtain ⟨fin, hf, he⟩ := code_eq G hn hc
  rw [← init_suffix G hn hc s.fields [] rfl]
  unfold Prg.new
  rw [show (prg types s code).code.inits = visitorInitializers s by rw [show (prg types s code).code = code from rfl, he]]
  congr 2
  simp only [prg, List.map_map, List.map_nil, List.nil_append]
  exact get_map_zip _ _ _

theorem cellOut_eq (cs : List (OCell τ α)) {p : Nat} {f : GField} (hf : s.fields[p]? = some f) :
    (prg types s code).cellOut (encode s.fields cs) f.ident = cs[p]?.bind (Open.cellOut (oG types f)) := by
  unfold Prg.cellOut
  rw [enc_mem hn cs hf]
  rcases hcs : cs[p]? with _ | ⟨b, c⟩ | t
  · rfl
  · simp only [Option.map_some, memVal, Option.bind_some, Open.cellOut]
  · simp only [Option.map_some, memVal, Option.bind_some, Open.cellOut]
    by_cases hm : f.mode = .flatten
    · rw [visName_visitor hm, visitor_eq G hn hc cs hf hm, hcs, oG_flatten types hm]
    · have h1 : (prg types s code).visitor (encode s.fields cs) (visName f) = .error .panic := by
        unfold Prg.visitor
        rw [show (prg types s code).code = code from rfl, defs_eq G hn hc hf, if_neg hm]
      rw [h1]
      have hT := G.noText f (List.mem_of_getElem? hf)
      cases hx : f.mode with
      | element i => rw [oG_element types hx]
      | «attribute» i => rw [oG_attribute types hx]
      | flatten => exact absurd hx hm
      | text => exact absurd hx hT

theorem outs_suffix : ∀ (fs pre : List GField) (l cs : List (OCell τ α)), s.fields = pre ++ fs → l.length = pre.length →
    (prg types s code).outs (encode s.fields (l ++ cs)) (fs.map fun f => (f.ident, f.ty)) = structOut (fs.map (oG types)) cs
  | [], _, _, _, _, _ => rfl
  | f :: fs, pre, l, cs, h, hl => by
    have hf : s.fields[l.length]? = some f := by rw [h, hl]; simp
    simp only [List.map_cons, Prg.outs, cellOut_eq G hn hc (l ++ cs) hf]
    cases cs with
    | nil => simp [structOut]
    | cons c cs =>
      have ih := outs_suffix fs (pre ++ [f]) (l ++ [c]) cs (by rw [h]; simp) (by simp [hl])
      rw [show l ++ [c] ++ cs = l ++ c :: cs by simp] at ih
      rw [ih, show (l ++ c :: cs)[l.length]? = some c by simp]
      rfl

theorem outs_eq (cs : List (OCell τ α)) :
    (prg types s code).raw.out (encode s.fields cs) = structOut (s.fields.map (oG types)) cs :=
  outs_suffix G hn hc s.fields [] [] cs rfl rfl

end


/-! ### Visitors that cannot be told apart -/

theorem offered_map {τ' : Type} (enc : τ → τ') (o : Offer σ τ) : offered (mapOffer enc o) = offered o := by
  cases o with
  | back t => rfl
  | take a =>
    simp only [mapOffer, offered, Option.some.injEq]
    cases a with
    | done r => cases r <;> rfl
    | readString k =>
      simp only [Action.map, Action.readString.injEq]
      funext x
      cases k x <;> rfl
    | readTo sub k =>
      simp only [Action.map, Action.readTo.injEq, true_and]
      funext x y
      cases k x y <;> rfl

/-- A translation of states that commutes with all methods, where an invariant holds. -/
theorem alike_of_hom {τ' β : Type} {f : α → β} {r : Raw σ τ α} {r' : Raw σ τ' β} (enc : τ → τ') (I : τ → Prop)
    (hI : I r.new) (hnew : r'.new = enc r.new)
    (hstep : ∀ t c t', I t → step r t c = .ok t' → I t')
    (hattr : ∀ t n v, I t → r'.attr (enc t) n v = (r.attr t n v).map fun x => (enc x.1, x.2))
    (hchars : ∀ t v pos, I t → r'.characters (enc t) v pos = (r.characters t v pos).map fun x => (enc x.1, x.2))
    (helem : ∀ t info, I t → r'.element (enc t) info = (r.element t info).map (mapOffer enc))
    (hfin : ∀ t d, I t → r'.finalize (enc t) (d.map (retMap f)) = (r.finalize t d).map fun x => (enc x.1, x.2))
    (hout : ∀ t, r'.out (enc t) = (r.out t).map f) : Alike f r r' := by
  have hs : ∀ t c, I t → step r' (enc t) c = (step r t c).map enc := by
    intro t c ht
    cases c with
    | attr n v =>
      simp only [step, hattr t n v ht]
      cases r.attr t n v <;> rfl
    | chars v pos =>
      simp only [step, hchars t v pos ht]
      cases r.characters t v pos <;> rfl
    | elem info s =>
      simp only [step, helem t info ht]
      cases r.element t info with
      | error e => rfl
      | ok o =>
        cases o with
        | back t => rfl
        | take a =>
          simp only [Except.map, mapOffer, give_map]
          cases give s a <;> rfl
  have hrun : ∀ (h : List (Call σ)) t, I t →
      (∃ e, run r h t = .error e ∧ run r' h (enc t) = .error e) ∨
      ∃ t', run r h t = .ok t' ∧ run r' h (enc t) = .ok (enc t') ∧ I t' := by
    intro h
    induction h with
    | nil => intro t ht; exact Or.inr ⟨t, rfl, rfl, ht⟩
    | cons c h ih =>
      intro t ht
      simp only [run, hs t c ht]
      rcases hx : step r t c with e | t1
      · exact Or.inl ⟨e, rfl, rfl⟩
      · exact ih t1 (hstep t c t1 ht hx)
  intro h
  rw [hnew]
  rcases hrun h r.new hI with he | ⟨t, h1, h2, ht⟩
  · exact Or.inl he
  · refine Or.inr ⟨t, enc t, h1, h2, ⟨?_, ?_, ?_, ?_⟩⟩
    · intro n v
      rw [hattr t n v ht]
      cases r.attr t n v <;> rfl
    · intro v pos
      rw [hchars t v pos ht]
      cases r.characters t v pos <;> rfl
    · intro info
      rw [helem t info ht]
      cases r.element t info with
      | error e => rfl
      | ok o => simp only [Except.map, offered_map]
    · intro d
      rw [hfin t d ht]
      cases r.finalize t d with
      | error e => rfl
      | ok x => simp only [Except.map, hout]

theorem struct_alike (types : String → TypeImpl σ τ α) {s : GStruct} {code : StructCode} (G : Good types s)
    (hn : (s.fields.map fun f => unraw f.ident).Nodup) (hc : structCode s = .ok code) :
    Alike id (structRaw (s.fields.map (oG types))) (prg types s code).raw := by
  refine alike_of_hom (encode s.fields) (fun _ => True) trivial ?_ (fun _ _ _ _ _ => trivial) ?_ ?_ ?_ ?_ ?_
  · show (match (prg types s code).new with
      | .ok g => g
      | .error _ => _) = _
    rw [new_eq G hn hc]
    simp only [structRaw, List.map_map]
    rfl
  · intro t n v _; exact attribute_eq G hn hc t n v
  · intro t v pos _; exact characters_eq G hn hc t v pos
  · intro t info _; exact element_eq G hn hc t info
  · intro t d _; exact finalize_eq G hn hc t
  · intro t
    rw [outs_eq G hn hc t]
    exact (Option.map_id_fun ▸ rfl)

theorem ofDescribed_struct (types : String → TypeImpl σ τ α) (ident : String) (ty : String → String) (s : MStruct)
    (hT : ∀ f ∈ s.fields, f.mode ≠ .text) (hn : (s.fields.map fun f => unraw f.ident).Nodup) :
    Good types (GStruct.ofDescribed ident ty s) ∧
    ((GStruct.ofDescribed ident ty s).fields.map fun f => unraw f.ident).Nodup ∧
    (GStruct.ofDescribed ident ty s).fields.map (oG types) = s.fields.map (oField types ty) ∧
    ((GStruct.ofDescribed ident ty s).fields.map fun f => (f.ident, f.ty)) = s.fields.map fun f => (f.ident, ty f.ident) := by
  have hb := new_bare ident (s.fields.map (newField ty))
  refine ⟨new_good types ident _ ?_, ?_, ?_, ?_⟩
  · intro f hf
    obtain ⟨m, hm, rfl⟩ := List.mem_map.mp hf
    have := hT m hm
    unfold newField newMode
    cases h : m.mode <;> simp_all
  · have := congrArg (List.map fun f => unraw f.ident) hb
    simp only [List.map_map] at this
    have h2 : (GStruct.ofDescribed ident ty s).fields.map (fun f => unraw f.ident) = s.fields.map fun f => unraw f.ident := this
    rw [h2]
    exact hn
  · have := congrArg (List.map (oG types)) hb
    simp only [List.map_map] at this
    rw [show (oG types ∘ bare) = oG types from funext (oG_bare types)] at this
    rw [show (oG types ∘ bare ∘ newField ty) = oField types ty from funext fun f => (oG_bare types _).trans (oG_newField types ty f)] at this
    exact this
  · have := congrArg (List.map fun f => (f.ident, f.ty)) hb
    simp only [List.map_map] at this
    exact this

end SX.Gen
