import Verif.Proof.OpenDerived
import Verif.Proof.OpenEnum
import Verif.Props.Derive

/-
C49, C50, C51, C52: the generated deserializers when the types of fields are written by hand.
-/
namespace SX
open Open Spec.Open

namespace ExO

/-- The types of the fields of an example: numbers. -/
abbrev F := OField Unit Nat Nat

/-- An element field that counts its elements, complains about each after the first, and panics at the name `boom`. -/
def counter : FieldImpl Unit Nat where
  init _ := .done (.ok 1)
  update v info := .done (v + 1, if info.name.loc = "boom" then .panic else .err (.wrap (.duplicateElement info.name.expanded)))
  missing n := .err (.wrap (.missingElement n))

/-- An attribute field holding the length of its value, at least one. -/
def length : AttrImpl Nat where
  init s := if s.length = 0 then .err (.wrap (.missingAttribute ⟨"", "empty"⟩)) else .ok s.length
  missing _ := .ok 0

/-- A flattened field that takes the attribute `rest`, hands on other attributes, and takes every child. -/
def rest : Raw Unit Nat Nat where
  new := 0
  attr t n v := .ok (if n.loc = "rest" then (t + 1, .ok none) else (t, .ok (some (v ++ "!"))))
  characters t s _ := .ok (t, .ok (some s))
  element t _ := .ok (.take (.done (.ok (t + 10, .panic))))
  finalize t _ := .ok (t, .ok ())
  out t := some t

/-- A flattened field that takes nothing. -/
def none' : Raw Unit Nat Nat where
  new := 7
  attr t _ v := .ok (t, .ok (some v))
  characters t s _ := .ok (t + 1, .ok (some s))
  element t _ := .ok (.back t)
  finalize t _ := .ok (t, .ok ())
  out t := some t

def fields : List F :=
  [⟨⟨none, "n"⟩, .element counter, none⟩, ⟨⟨none, "len"⟩, .attribute length, none⟩, ⟨⟨none, "skip"⟩, .flatten none', none⟩,
    ⟨⟨none, "rest"⟩, .flatten rest, none⟩]

theorem rest_sound : Sound rest := by
  refine sound_of_invariant (fun _ => True) trivial ?_ ?_
  · intro t c _
    cases c with
    | attr n v =>
      exact ⟨_, rfl, trivial⟩
    | chars v pos => exact ⟨_, rfl, trivial⟩
    | elem info s => exact ⟨_, rfl, trivial⟩
  · exact fun t d _ => ⟨t, _, rfl, fun _ => ⟨t, rfl⟩⟩

theorem none_sound : Sound none' := by
  refine sound_of_invariant (fun _ => True) trivial ?_ ?_
  · intro t c _
    cases c with
    | attr n v => exact ⟨_, rfl, trivial⟩
    | chars v pos => exact ⟨_, rfl, trivial⟩
    | elem info s => exact ⟨_, rfl, trivial⟩
  · exact fun t d _ => ⟨t, _, rfl, fun _ => ⟨t, rfl⟩⟩

theorem fields_sound : ∀ f ∈ fields, ∀ raw, f.kind = .flatten raw → Sound raw := by
  intro f hf raw hk
  simp only [fields, List.mem_cons, List.not_mem_nil, or_false] at hf
  rcases hf with rfl | rfl | rfl | rfl
  · exact nomatch hk
  · exact nomatch hk
  · cases hk; exact none_sound
  · cases hk; exact rest_sound

theorem fields_distinct : Distinct fields := by
  intro p q f g hp hq hn hk
  match p, q with
  | 0, 0 => rfl
  | 1, 1 => rfl
  | 2, 2 => rfl
  | 3, 3 => rfl
  | 0, 1 | 1, 0 | 0, 2 | 2, 0 | 0, 3 | 3, 0 | 1, 2 | 2, 1 | 1, 3 | 3, 1 | 2, 3 | 3, 2 =>
    simp only [fields, List.getElem?_cons_zero, List.getElem?_cons_succ, Option.some.injEq] at hp hq
    subst hp hq
    simp [DName.expanded] at hn
  | p + 4, _ => simp [fields] at hp
  | _, q + 4 => simp [fields] at hq

def child (s : String) : ElemInfo := ⟨⟨s, none, none⟩, [], 1⟩

/-- Nothing to be read. -/
def nothing : Supply Unit := ⟨.ok "", (), .ok (⟨"x", none, none⟩, [], ⟨1, 1⟩)⟩

def history : List (Call Unit) :=
  [.attr ⟨"", "len"⟩ "", .attr ⟨"", "rest"⟩ "x", .elem (child "n") nothing, .attr ⟨"", "len"⟩ "abc", .elem (child "n") nothing,
    .elem (child "other") nothing, .attr ⟨"", "len"⟩ "abcd", .chars " " ⟨1, 1⟩]

end ExO

/-! ## C49 -/

/-- C49: the visitor generated for a struct keeps the contract of `RawDeserializeVisitor`, whatever the implementations for its fields'
types do: return errors, panic, change a value and then fail.  For flattened fields, whose implementations are `unsafe impl`s, the
contract is assumed. -/
theorem C49_struct {σ τ α : Type} (fields : List (OField σ τ α))
    (hF : ∀ f ∈ fields, ∀ raw, f.kind = .flatten raw → Sound raw) : Sound (structRaw fields) :=
  structRaw_sound hF

example : Sound (structRaw ExO.fields) := C49_struct _ ExO.fields_sound
example : run (structRaw ExO.fields) ExO.history (structRaw ExO.fields).new =
    .ok [.plain true (some 2), .plain true (some 3), .flat 8, .flat 11] := rfl

/-- C49: so does the visitor generated for an enum. -/
theorem C49_enum {σ α : Type} (ident : String) (vs : List (OVariant σ α)) : Sound (enumRaw ident vs) :=
  enumRaw_sound ident vs

example : Sound (enumRaw "E" [⟨⟨none, "a"⟩, some ExO.counter⟩, ⟨⟨none, "b"⟩, none⟩]) := C49_enum _ _
example : run (enumRaw "E" [⟨⟨none, "a"⟩, some ExO.counter⟩, ⟨⟨none, "b"⟩, none⟩])
    [.elem (ExO.child "c") ExO.nothing, .elem (ExO.child "a") ExO.nothing, .elem (ExO.child "b") ExO.nothing,
      .elem (ExO.child "a") ExO.nothing] ⟨false, none⟩ = .ok ⟨true, some (0, some 2)⟩ := rfl

/-- C49: the assumption is needed: if a flattened field's visitor says `Ok` without having initialized the memory, so does the
struct's. -/
theorem C49_contract_needed : ∃ (raw : Raw Unit Unit Nat) (f : OField Unit Unit Nat), f.kind = .flatten raw ∧ ¬ Sound (structRaw [f]) := by
  refine ⟨⟨(), fun _ _ v => .ok ((), .ok (some v)), fun _ s _ => .ok ((), .ok (some s)), fun _ _ => .ok (.back ()),
    fun _ _ => .ok ((), .ok ()), fun _ => none⟩, ⟨⟨none, "f"⟩, .flatten _, none⟩, rfl, fun h => ?_⟩
  obtain ⟨t, h1, h2⟩ := h []
  cases h1
  obtain ⟨t', r, h3, h4⟩ := h2 none
  cases h3
  obtain ⟨v, hv⟩ := h4 rfl
  exact nomatch hv

/-- C49: the model of Part II (fields of text types and derived types) is a special case: what the visitor of a derived struct does, after
any calls, is what the visitor of this model does with the implementations of these types. -/
theorem C49_struct_agrees (env : Env) (i : Nat) (hT : ∀ f ∈ (env.strct i).fields, ∀ t, f.kind ≠ .text t)
    (hskip : ∀ e, ∀ v ∈ (env.enm e).variants, v.skip = false) (h : List (Call DState)) (fs : List (OCell (OEnum Val) Val))
    (hr : run (structRaw (openFields env i)) h (structRaw (openFields env i)).new = .ok fs) :
    let seen := fun fs : List (OCell (OEnum Val) Val) => DState.strct i (fs.map fieldState)
    newStruct env i = seen (structRaw (openFields env i)).new ∧
    (∀ n v, someOk ((derivedVisitor env).onAttr (seen fs) n v) = someAttr ((structRaw (openFields env i)).attr fs n v) seen) ∧
    (∀ s pos, someOk ((derivedVisitor env).onChars (seen fs) s pos) = someAttr ((structRaw (openFields env i)).characters fs s pos) seen) ∧
    (∀ info, ((derivedVisitor env).onElem (seen fs) info).map someOk = someOffer ((structRaw (openFields env i)).element fs info) seen) ∧
    someOk (finalize env (seen fs)) = someFinal (structRaw (openFields env i)) .strct fs none := by
  intro seen
  obtain ⟨fs', h1, h2⟩ := run_cells (flatSound_open env i) h
  rw [hr] at h1
  cases h1
  refine ⟨newStruct_open env i, fun n v => structAttribute_open env i hT n v fs h2, fun s pos => ?_,
    fun info => structElement_open env i hskip info fs h2, finalize_open env i hT fs h2⟩
  show some _ = someAttr (delegateCharacters (openFields env i) pos (flatPos (openFields env i) 0) fs s) seen
  rw [delegateCharacters_open env i pos _ (fun p hp => flatPos_flatten env i p hp) fs h2]
  rfl

/-- C49: the same for enums. -/
theorem C49_enum_agrees (env : Env) (e : Nat) (hskip : ∀ v ∈ (env.enm e).variants, v.skip = false) (h : List (Call DState))
    (st : OEnum Val)
    (hr : run (enumRaw (env.enm e).ident (openVariants env e)) h (enumRaw (env.enm e).ident (openVariants env e)).new = .ok st) :
    let raw := enumRaw (env.enm e).ident (openVariants env e)
    let seen := fun st : OEnum Val => DState.enm e (enumState st)
    newEnum e = seen raw.new ∧
    (∀ n v, someOk ((derivedVisitor env).onAttr (seen st) n v) = someAttr (raw.attr st n v) seen) ∧
    (∀ s pos, someOk ((derivedVisitor env).onChars (seen st) s pos) = someAttr (raw.characters st s pos) seen) ∧
    (∀ info, ((derivedVisitor env).onElem (seen st) info).map someOk = someOffer (raw.element st info) seen) ∧
    someOk (finalize env (seen st)) = someFinal raw enumVal st none := by
  intro raw seen
  have hst : Open.EnumOk (openVariants env e) st := enumReached ⟨h, (flattenImpl_run env e h _).trans hr⟩
  refine ⟨rfl, fun n v => rfl, fun s pos => rfl, fun info => ?_, enumFinalize_open env e st hst⟩
  show ((match SX.enumElement env e (enumState st) info.name.expanded with
      | .error f => Action.done (.error f)
      | .ok none => .done (.ok (.enm e (enumState st), .ok ()))
      | .ok (some act) => act.map fun r => r.map fun (st, r) => (.enm e st, r)) : Action DState _).map someOk =
    someOffer (Open.enumElement (openVariants env e) st info) seen
  rcases enumElement_open env e hskip st hst info with ⟨x, y, h1, h2⟩ | ⟨h1, h2⟩ | ⟨a, b, h1, h2, h3⟩
  · rw [h1, h2]; rfl
  · rw [h1, h2]; rfl
  · rw [h1, h2]
    simp only [map_map]
    exact h3 (.enm e)

example : (∀ f ∈ (Ex.env.strct 0).fields, ∀ t, f.kind ≠ .text t) ∧ (∀ e, ∀ v ∈ (Ex.env.enm e).variants, v.skip = false) := by
  constructor
  · intro f hf t hk
    simp only [Ex.env, Ex.recFields, List.mem_cons, List.not_mem_nil, or_false] at hf
    rcases hf with rfl | rfl | rfl | rfl | rfl <;> exact nomatch hk
  · intro e v hv
    simp only [Ex.env] at hv
    split at hv
    · simp only [Ex.choice, List.mem_cons, List.not_mem_nil, or_false] at hv
      rcases hv with rfl | rfl | rfl <;> rfl
    · simp only [Ex.other, List.mem_cons, List.not_mem_nil, or_false] at hv
      rcases hv with rfl | rfl <;> rfl
    · exact nomatch hv

/-! ## C50 -/

/-- C50: what `finalize` leaves in an element or attribute field.  The field holds what was read for it: the result of the first `init`
that succeeded on a child (attribute) of its name, changed by the `update`s with the later ones.  If there is none, the field's
default, or what `missing` returned. -/
theorem C50_value {σ τ α : Type} (fields : List (OField σ τ α))
    (hF : ∀ f ∈ fields, ∀ raw, f.kind = .flatten raw → Sound raw) (hD : Distinct fields) (h : List (Call σ))
    (fs fs' : List (OCell τ α)) (hr : run (structRaw fields) h (structRaw fields).new = .ok fs)
    (d : Option (Ret Empty (List α))) (hf : (structRaw fields).finalize fs d = .ok (fs', .ok ()))
    (vs : List α) (hv : (structRaw fields).out fs' = some vs) :
    ∀ (p : Nat) f, fields[p]? = some f → (∀ raw, f.kind ≠ .flatten raw) →
      ∃ v, vs[p]? = some v ∧ (found f h = some v ∨ found f h = none ∧ absent f = .ok v) :=
  fun _ _ hp hk => finalizeCells_get hf hv hp hk (run_found hF hD hp hk h fs hr)

example : ∃ fs', run (structRaw ExO.fields) ExO.history (structRaw ExO.fields).new = .ok fs' ∧
    (structRaw ExO.fields).finalize fs' none = .ok (fs', .ok ()) ∧ (structRaw ExO.fields).out fs' = some [2, 3, 8, 11] :=
  ⟨_, rfl, rfl, rfl⟩
example : ExO.fields.map (fun f => found f ExO.history) = [some 2, some 3, none, none] := rfl
example : Distinct ExO.fields := ExO.fields_distinct

/-- C50: if `finalize` fails (or panics), the failure is that of the first field in declaration order that has one: nothing was
read for it and its `missing` (its default) failed like this; or it is flattened and its visitor's `finalize` did. -/
theorem C50_missing {σ τ α : Type} (fields : List (OField σ τ α))
    (hF : ∀ f ∈ fields, ∀ raw, f.kind = .flatten raw → Sound raw) (hD : Distinct fields) (h : List (Call σ))
    (fs fs' : List (OCell τ α)) (hr : run (structRaw fields) h (structRaw fields).new = .ok fs)
    (d : Option (Ret Empty (List α))) (r : Ret VErr Unit) (hf : (structRaw fields).finalize fs d = .ok (fs', r)) (hbad : r ≠ .ok ()) :
    ∃ p f, fields[p]? = some f ∧
      ((∀ raw, f.kind ≠ .flatten raw) → found f h = none ∧
        ((∃ e, absent f = .err e ∧ r = .err e) ∨ (absent f = .panic ∧ r = .panic))) ∧
      (∀ raw, f.kind = .flatten raw → ∃ t t', fs[p]? = some (.flat t) ∧ raw.finalize t f.default = .ok (t', r)) ∧
      ∀ (q : Nat) g, q < p → fields[q]? = some g → (∀ raw, g.kind ≠ .flatten raw) →
        (∃ v, found g h = some v) ∨ ∃ v, absent g = .ok v := by
  obtain ⟨fs1, h1, hok⟩ := run_cells hF h
  rw [hr] at h1
  cases h1
  obtain ⟨p, f, c, c', h1, h2, h3, h4⟩ := finalizeCells_stop hF hok hf hbad
  refine ⟨p, f, h1, fun hk => ?_, fun raw hk => ?_, fun q g hq hg hk => ?_⟩
  · have h5 := run_found hF hD h1 hk h fs hr
    rw [h2] at h5
    cases h5
    obtain ⟨c'', r', h6, h7, h8, h9, h10⟩ := finalizeCell_plain hk (found f h)
    rw [h3] at h6
    cases h6
    cases hfo : found f h with
    | some a => exact absurd (h7 a hfo).2 hbad
    | none =>
      refine ⟨rfl, ?_⟩
      cases ha : absent f with
      | ok a => exact absurd (h8 hfo a ha).2 hbad
      | err e => exact .inl ⟨e, rfl, h9 hfo e ha⟩
      | panic => exact .inr ⟨rfl, h10 hfo ha⟩
  · obtain ⟨c1, h5, h6⟩ := hok.get h1
    rw [h2] at h5
    cases h5
    obtain ⟨nm, kd, df⟩ := f
    simp only at hk
    subst hk
    obtain ⟨t, rfl, -⟩ := h6
    unfold finalizeCell at h3
    simp only at h3
    cases h7 : raw.finalize t df with
    | error x => rw [h7] at h3; exact nomatch h3
    | ok y =>
      obtain ⟨t', r'⟩ := y
      rw [h7] at h3
      cases h3
      exact ⟨t, t', h2, h7⟩
  · have h5 := run_found hF hD hg hk h fs hr
    obtain ⟨d', h6⟩ := h4 q g _ hq hg h5
    obtain ⟨c'', r', h7, -, -, h9, h10⟩ := finalizeCell_plain hk (found g h)
    rw [h6] at h7
    cases h7
    cases hfo : found g h with
    | some a => exact .inl ⟨a, rfl⟩
    | none =>
      right
      cases ha : absent g with
      | ok a => exact ⟨a, rfl⟩
      | err e => exact nomatch h9 hfo e ha
      | panic => exact nomatch h10 hfo ha

example : ∃ fs fs', run (structRaw ExO.fields) [.attr ⟨"", "len"⟩ ""] (structRaw ExO.fields).new = .ok fs ∧
    (structRaw ExO.fields).finalize fs none = .ok (fs', .err (.wrap (.missingElement ⟨"", "n"⟩))) := ⟨_, _, rfl, rfl⟩

/-- C50: what the visitor does with a child that an element field is declared for: `init` or `update` of that field's type reads it,
once; the answer is theirs; no other field and no flattened visitor is touched. -/
theorem C50_child {σ τ α : Type} (fields : List (OField σ τ α))
    (hF : ∀ f ∈ fields, ∀ raw, f.kind = .flatten raw → Sound raw) (hD : Distinct fields) (h : List (Call σ))
    (fs : List (OCell τ α)) (hr : run (structRaw fields) h (structRaw fields).new = .ok fs)
    (p : Nat) (f : OField σ τ α) (impl : FieldImpl σ α) (hp : fields[p]? = some f) (hk : f.kind = .element impl)
    (info : ElemInfo) (hn : info.name.expanded = f.name.expanded) (s : Supply σ) :
    ∃ a fs' x, (structRaw fields).element fs info = .ok (.take a) ∧ give s a = .ok (fs', x) ∧
      (∀ q, q ≠ p → fs'[q]? = fs[q]?) ∧
      match found f h with
      | none => (∃ v, give s (impl.init info) = .ok v ∧ x = .ok ()) ∨ (∃ e, give s (impl.init info) = .err e ∧ x = .err e) ∨
          (give s (impl.init info) = .panic ∧ x = .panic)
      | some v => x = (give s (impl.update v info)).2 := by
  have hnf : ∀ raw, f.kind ≠ .flatten raw := by rw [hk]; exact nofun
  have hc := run_found hF hD hp hnf h fs hr
  rw [show (structRaw fields).element = Open.structElement fields from rfl]
  unfold Open.structElement
  rcases Open.lookup_elem fields info.name.expanded with ⟨q, g, gi, h1, hg, hgk, hgn⟩ | ⟨h1, h2⟩
  · have hqp : q = p := hD q p g f hg hp (hgn.trans hn) (.inl ⟨gi, impl, hgk, hk⟩)
    subst hqp
    rw [hp] at hg
    cases hg
    rw [hk] at hgk
    cases hgk
    obtain ⟨nm, kd, df⟩ := f
    simp only at hk
    subst hk
    simp only [h1, hp, hc]
    cases hfo : found (⟨nm, .element impl, df⟩ : OField σ τ α) h with
    | some v =>
      simp only [Option.isSome_some, if_true]
      refine ⟨_, fs.set q (.plain true (some (give s (impl.update v info)).1)), (give s (impl.update v info)).2, rfl, ?_, ?_, rfl⟩
      · rw [give_map]
      · exact fun q' hq' => List.getElem?_set_ne (fun hh => hq' hh.symm)
    | none =>
      rw [if_neg (by simp)]
      cases hi : give s (impl.init info) with
      | ok v =>
        refine ⟨_, fs.set q (.plain true (some v)), .ok (), rfl, ?_, ?_, .inl ⟨v, rfl, rfl⟩⟩
        · rw [give_map, hi]; rfl
        · exact fun q' hq' => List.getElem?_set_ne (fun hh => hq' hh.symm)
      | err e =>
        refine ⟨_, fs, .err e, rfl, ?_, fun _ _ => rfl, .inr (.inl ⟨e, rfl, rfl⟩)⟩
        rw [give_map, hi]
      | panic =>
        refine ⟨_, fs, .panic, rfl, ?_, fun _ _ => rfl, .inr (.inr ⟨rfl, rfl⟩)⟩
        rw [give_map, hi]
  · exact absurd hn.symm (h2 f (List.mem_of_getElem? hp) impl hk)

/-- A second `n`: its field has a value, so `update` is asked. -/
example := C50_child ExO.fields ExO.fields_sound ExO.fields_distinct ExO.history _ rfl 0 _ _ rfl rfl (ExO.child "n") rfl ExO.nothing

/-- C50: the same for an attribute: a second one is an error, without asking the field's type. -/
theorem C50_attribute {σ τ α : Type} (fields : List (OField σ τ α))
    (hF : ∀ f ∈ fields, ∀ raw, f.kind = .flatten raw → Sound raw) (hD : Distinct fields) (h : List (Call σ))
    (fs : List (OCell τ α)) (hr : run (structRaw fields) h (structRaw fields).new = .ok fs)
    (p : Nat) (f : OField σ τ α) (impl : AttrImpl α) (hp : fields[p]? = some f) (hk : f.kind = .attribute impl) (value : String) :
    ∃ fs' x, (structRaw fields).attr fs f.name.expanded value = .ok (fs', x) ∧
      (∀ q, q ≠ p → fs'[q]? = fs[q]?) ∧
      match found f h with
      | none => (∃ v, impl.init value = .ok v ∧ x = .ok none) ∨ (∃ e, impl.init value = .err e ∧ x = .err e) ∨
          (impl.init value = .panic ∧ x = .panic)
      | some _ => x = .err (.wrap (.duplicateAttribute f.name.expanded)) := by
  have hnf : ∀ raw, f.kind ≠ .flatten raw := by rw [hk]; exact nofun
  have hc := run_found hF hD hp hnf h fs hr
  show ∃ fs' x, Open.structAttribute fields fs f.name.expanded value = .ok (fs', x) ∧ _
  unfold Open.structAttribute
  rcases Open.lookup_attr fields f.name.expanded with ⟨q, g, gi, h1, hg, hgk, hgn⟩ | ⟨h1, h2⟩
  · have hqp : q = p := hD q p g f hg hp hgn (.inr ⟨gi, impl, hgk, hk⟩)
    subst hqp
    rw [hp] at hg
    cases hg
    rw [hk] at hgk
    cases hgk
    obtain ⟨nm, kd, df⟩ := f
    simp only at hk
    subst hk
    simp only [h1, hp, hc]
    cases hfo : found (⟨nm, .attribute impl, df⟩ : OField σ τ α) h with
    | some v => exact ⟨fs, _, rfl, fun _ _ => rfl, rfl⟩
    | none =>
      rw [if_neg (by simp)]
      cases hi : impl.init value with
      | ok v => exact ⟨_, _, rfl, fun q' hq' => List.getElem?_set_ne (fun hh => hq' hh.symm), .inl ⟨v, rfl, rfl⟩⟩
      | err e => exact ⟨_, _, rfl, fun _ _ => rfl, .inr (.inl ⟨e, rfl, rfl⟩)⟩
      | panic => exact ⟨_, _, rfl, fun _ _ => rfl, .inr (.inr ⟨rfl, rfl⟩)⟩
  · exact absurd rfl (h2 f (List.mem_of_getElem? hp) impl hk)

example := C50_attribute ExO.fields ExO.fields_sound ExO.fields_distinct ExO.history _ rfl 1 _ _ rfl rfl "again"

/-! ## C51 -/

/-- C51: a child no element field is declared for is offered to the flattened fields' visitors in declaration order, until one keeps
it; the others are not asked and keep their states; the struct's answer is that visitor's; other fields are not touched. -/
theorem C51_child {σ τ α : Type} (fields : List (OField σ τ α))
    (hF : ∀ f ∈ fields, ∀ raw, f.kind = .flatten raw → Sound raw) (h : List (Call σ))
    (fs : List (OCell τ α)) (hr : run (structRaw fields) h (structRaw fields).new = .ok fs)
    (info : ElemInfo) (hn : ∀ f ∈ fields, ∀ impl, f.kind = .element impl → f.name.expanded ≠ info.name.expanded) (s : Supply σ) :
    (∃ fs', (structRaw fields).element fs info = .ok (.back fs') ∧
      Passed (OffersElem info s) (flatOf fields fs) () ((flatOf fields fs').map Prod.snd) (.inl ()) ∧ SamePlain fields fs fs') ∨
    ∃ a fs' x, (structRaw fields).element fs info = .ok (.take a) ∧ give s a = .ok (fs', x) ∧
      Passed (OffersElem info s) (flatOf fields fs) () ((flatOf fields fs').map Prod.snd) (.inr x) ∧ SamePlain fields fs fs' := by
  obtain ⟨fs1, h1, hok⟩ := run_cells hF h
  rw [hr] at h1
  cases h1
  rw [show (structRaw fields).element = Open.structElement fields from rfl]
  unfold Open.structElement
  rcases Open.lookup_elem fields info.name.expanded with ⟨q, g, gi, h1, hg, hgk, hgn⟩ | ⟨h1, -⟩
  · exact absurd hgn (hn g (List.mem_of_getElem? hg) gi hgk)
  · simp only [h1]
    rcases delegateElement_ok hF info s (flatPos fields 0) (flatPos_spec fields) fs hok with ⟨fs', h2, h3⟩ | ⟨a, fs', x, h2, h3, h4⟩
    · left
      rcases delegateElement_passed info s [] fields [] fs rfl _ h2 (Shaped.of_cellsOk hok) with ⟨fs2, h5, h6, -, h7⟩ | ⟨a, h5, -⟩
      · cases h5
        exact ⟨_, h2, h6, h7⟩
      · exact nomatch h5
    · right
      rcases delegateElement_passed info s [] fields [] fs rfl _ h2 (Shaped.of_cellsOk hok) with ⟨fs2, h5, -⟩ | ⟨a', h5, h6⟩
      · exact nomatch h5
      · cases h5
        obtain ⟨fs2, h7, h8, -, h9⟩ := h6 fs' x h3
        simp only [List.nil_append] at h7
        subst h7
        exact ⟨a, fs', x, h2, h3, h8, h9⟩

example := C51_child ExO.fields ExO.fields_sound ExO.history _ rfl (ExO.child "rest") (by
  intro f hf impl hk
  simp only [ExO.fields, List.mem_cons, List.not_mem_nil, or_false] at hf
  rcases hf with rfl | rfl | rfl | rfl <;> simp_all [ExO.child, QName.expanded, DName.expanded]) ExO.nothing

/-- C51: the same for an attribute no attribute field is declared for.  What a visitor hands on is what the next one gets. -/
theorem C51_attribute {σ τ α : Type} (fields : List (OField σ τ α))
    (hF : ∀ f ∈ fields, ∀ raw, f.kind = .flatten raw → Sound raw) (h : List (Call σ))
    (fs : List (OCell τ α)) (hr : run (structRaw fields) h (structRaw fields).new = .ok fs)
    (n : EName) (hn : ∀ f ∈ fields, ∀ impl, f.kind = .attribute impl → f.name.expanded ≠ n) (value : String) :
    ∃ fs' r, (structRaw fields).attr fs n value = .ok (fs', answer r) ∧
      Passed (OffersAttr n) (flatOf fields fs) value ((flatOf fields fs').map Prod.snd) r ∧ SamePlain fields fs fs' := by
  obtain ⟨fs1, h1, hok⟩ := run_cells hF h
  rw [hr] at h1
  cases h1
  show ∃ fs' r, Open.structAttribute fields fs n value = .ok (fs', answer r) ∧ _
  unfold Open.structAttribute
  rcases Open.lookup_attr fields n with ⟨q, g, gi, h1, hg, hgk, hgn⟩ | ⟨h1, -⟩
  · exact absurd hgn (hn g (List.mem_of_getElem? hg) gi hgk)
  · simp only [h1]
    obtain ⟨fs', x, h2, h3⟩ := delegateAttribute_ok hF n (flatPos fields 0) (flatPos_spec fields) fs hok value
    obtain ⟨fs2, r, h4, h5, h6, -, h7⟩ := delegateAttribute_passed n [] fields [] fs rfl value fs' x h2 (Shaped.of_cellsOk hok)
    simp only [List.nil_append] at h4
    subst h4 h5
    exact ⟨fs', r, h2, h6, h7⟩

/-- C51: the same for text, which no field of a struct is for. -/
theorem C51_text {σ τ α : Type} (fields : List (OField σ τ α))
    (hF : ∀ f ∈ fields, ∀ raw, f.kind = .flatten raw → Sound raw) (h : List (Call σ))
    (fs : List (OCell τ α)) (hr : run (structRaw fields) h (structRaw fields).new = .ok fs) (s : String) (pos : Pos) :
    ∃ fs' r, (structRaw fields).characters fs s pos = .ok (fs', answer r) ∧
      Passed (OffersChars pos) (flatOf fields fs) s ((flatOf fields fs').map Prod.snd) r ∧ SamePlain fields fs fs' := by
  obtain ⟨fs1, h1, hok⟩ := run_cells hF h
  rw [hr] at h1
  cases h1
  show ∃ fs' r, delegateCharacters fields pos (flatPos fields 0) fs s = .ok (fs', answer r) ∧ _
  obtain ⟨fs', x, h2, h3⟩ := delegateCharacters_ok hF pos (flatPos fields 0) (flatPos_spec fields) fs hok s
  obtain ⟨fs2, r, h4, h5, h6, -, h7⟩ := delegateCharacters_passed pos [] fields [] fs rfl s fs' x h2 (Shaped.of_cellsOk hok)
  simp only [List.nil_append] at h4
  subst h4 h5
  exact ⟨fs', r, h2, h6, h7⟩

/-! Two flattened fields: the first passes the attribute on, the second keeps it or changes it. -/
example : (structRaw ExO.fields).attr (structRaw ExO.fields).new ⟨"", "x"⟩ "v" =
    .ok ((structRaw ExO.fields).new, .ok (some "v!")) := rfl
example : Passed (OffersAttr ⟨"", "rest"⟩) (flatOf ExO.fields (structRaw ExO.fields).new) "v" [7, 1] (.inr (.ok ())) :=
  .next (x' := "v") rfl (.keep rfl)
example : (structRaw ExO.fields).element (structRaw ExO.fields).new (ExO.child "x") =
    .ok (.take (.done (.ok ([.plain false none, .plain false none, .flat 7, .flat 10], .panic)))) := rfl

/-! ## C52 -/

namespace ExO

/-- A payload whose `init` fails for children below depth one. -/
def picky : FieldImpl Unit Nat where
  init info := .done (if info.depth = 1 then .ok 1 else .err (.wrap (.missingAttribute ⟨"", "none"⟩)))
  update v info := .done (v + 1, .err (.wrap (.duplicateElement info.name.expanded)))
  missing n := .err (.wrap (.missingElement n))

def variants : List (OVariant Unit Nat) := [⟨⟨none, "a"⟩, some picky⟩, ⟨⟨some "u", "b"⟩, none⟩, ⟨⟨none, "c"⟩, some counter⟩]

theorem variants_ok : Searchable variants := by
  refine ⟨?_, ?_⟩
  · intro i j v w hv hw hn
    match i, j with
    | 0, 0 => rfl
    | 1, 1 => rfl
    | 2, 2 => rfl
    | 0, 1 | 1, 0 | 0, 2 | 2, 0 | 1, 2 | 2, 1 =>
      simp only [variants, List.getElem?_cons_zero, List.getElem?_cons_succ, Option.some.injEq] at hv hw
      subst hv hw
      simp [DName.expanded] at hn
    | i + 3, _ => simp [variants] at hv
    | _, j + 3 => simp [variants] at hw
  · intro d hd e he h1 h2
    simp only [variants, List.map_cons, List.map_nil, List.mem_cons, List.not_mem_nil, or_false] at he
    rcases he with rfl | rfl | rfl <;> simp at h2

/-- A failed `a`, an unknown child, then `a` twice, a `c`, an unknown one. -/
def choices : List (Call Unit) :=
  [.elem ⟨⟨"a", none, none⟩, [], 2⟩ nothing, .elem (child "z") nothing, .elem (child "a") nothing, .chars "t" ⟨1, 1⟩,
    .elem (child "a") nothing, .elem (child "c") nothing, .elem (child "z") nothing]

end ExO

/-- C52: the value an enum's visitor ends with.  After any calls, `finalize` returns `Ok` with the variant held; if none is held, with
the default passed to it (and panics if making that panics); without a default it returns the error naming the enum. -/
theorem C52_value {σ α : Type} (ident : String) (vs : List (OVariant σ α)) (hs : Searchable vs) (h : List (Call σ))
    (d : Option (Ret Empty (Nat × Option α))) :
    ∃ st st' res, run (enumRaw ident vs) h (enumRaw ident vs).new = .ok st ∧
      (enumRaw ident vs).finalize st d = .ok (st', res) ∧
      match held vs none h, d with
      | some x, _ => res = .ok () ∧ (enumRaw ident vs).out st' = some x
      | none, some (.ok y) => res = .ok () ∧ (enumRaw ident vs).out st' = some y
      | none, some (.err e) => nomatch e
      | none, some .panic => res = .panic
      | none, none => res = .err (.wrap (.cantBeEmpty ident)) := by
  obtain ⟨st, h1, h2, h3⟩ := enum_run_held ident hs h (enumRaw ident vs).new (.inl ⟨rfl, rfl⟩)
  rw [show (enumRaw ident vs).new.cell = none from rfl] at h3
  rw [← h3]
  obtain ⟨ini, cell⟩ := st
  rcases h2 with ⟨h4, h5⟩ | ⟨h4, i, v, p, h5, -⟩
  · simp only at h4 h5
    subst h4 h5
    cases d with
    | none => exact ⟨_, _, _, h1, rfl, rfl⟩
    | some d =>
      cases d with
      | ok y => exact ⟨_, _, _, h1, rfl, rfl, rfl⟩
      | err e => exact nomatch e
      | panic => exact ⟨_, _, _, h1, rfl, rfl⟩
  · simp only at h4 h5
    subst h4 h5
    exact ⟨_, _, _, h1, rfl, rfl, rfl⟩

example : held ExO.variants none ExO.choices = some (0, some 2) := rfl
example : held ExO.variants none [.elem (ExO.child "z") ExO.nothing] = none := rfl

/-- C52: which variant is held, and with which payload.  There is a child of that variant's name before which nothing was held; it is
a unit variant, or `init` succeeded on that child; and the payload is what C50 says of an element field of that name. -/
theorem C52_which {σ α : Type} (vs : List (OVariant σ α)) (hs : Searchable vs) (h : List (Call σ)) (i : Nat) (q : Option α)
    (hh : held vs none h = some (i, q)) :
    ∃ v, vs[i]? = some v ∧ (v.payload = none → q = none) ∧
      (∀ impl, v.payload = some impl → ∃ x, q = some x ∧ afterElems impl none (elems v.name.expanded h) = some x) ∧
      ∃ pre info s post, h = pre ++ .elem info s :: post ∧ held vs none pre = none ∧ info.name.expanded = v.name.expanded ∧
        ∀ impl, v.payload = some impl → ∃ x, give s (impl.init info) = .ok x := by
  obtain ⟨v, h1, h2, h3, h4⟩ := held_none hs h i q hh
  refine ⟨v, h1, fun hp => ?_, fun impl hp => ?_, h4⟩
  · rw [hp] at h2
    cases q with
    | none => rfl
    | some x => simp at h2
  · have h5 := h3 impl hp
    rw [hp] at h2
    cases q with
    | none => simp at h2
    | some x => exact ⟨x, rfl, h5.symm⟩

/-- C52: what the visitor does with a child after any calls: what `onChild` says, and nothing else changes. -/
theorem C52_child {σ α : Type} (ident : String) (vs : List (OVariant σ α)) (hs : Searchable vs) (h : List (Call σ)) (st : OEnum α)
    (hr : run (enumRaw ident vs) h (enumRaw ident vs).new = .ok st) (info : ElemInfo) (s : Supply σ) :
    match onChild vs (held vs none h) info s with
    | (c, none) => c = held vs none h ∧ (enumRaw ident vs).element st info = .ok (.back st)
    | (c, some x) => ∃ a st', (enumRaw ident vs).element st info = .ok (.take a) ∧ give s a = .ok (st', x) ∧
        (enumRaw ident vs).out st' = c ∧ held vs none (h ++ [.elem info s]) = c := by
  obtain ⟨st1, h1, h2, h3⟩ := enum_run_held ident hs h (enumRaw ident vs).new (.inl ⟨rfl, rfl⟩)
  rw [hr] at h1
  cases h1
  rw [show (enumRaw ident vs).new.cell = none from rfl] at h3
  have happ : ∀ (h : List (Call σ)) c, held vs c (h ++ [.elem info s]) = (onChild vs (held vs c h) info s).1 := by
    intro h
    induction h with
    | nil => intro c; rfl
    | cons x h ih =>
      intro c
      cases x with
      | attr n v => exact ih c
      | chars v pos => exact ih c
      | elem info' s' => exact ih _
  rw [happ, ← h3]
  rcases Open.enumElement_held hs st info s h2 with ⟨h4, h5⟩ | ⟨a, st', x, h4, h5, -, h6⟩
  · rw [h5]
    exact ⟨rfl, h4⟩
  · rw [h6]
    exact ⟨a, st', h4, h5, rfl, rfl⟩

example : Searchable ExO.variants := ExO.variants_ok
example : (onChild ExO.variants (held ExO.variants none ExO.choices) (ExO.child "c") ExO.nothing).2 =
    some (.err (.wrap (.unexpectedElement ⟨"", "c"⟩ ⟨"", "a"⟩))) := rfl
example : onChild ExO.variants (held ExO.variants none ExO.choices) (ExO.child "a") ExO.nothing =
    (some (0, some 3), some (.err (.wrap (.duplicateElement ⟨"", "a"⟩)))) := rfl
example : run (enumRaw "E" ExO.variants) ExO.choices ⟨false, none⟩ = .ok ⟨true, some (0, some 2)⟩ := rfl

end SX
