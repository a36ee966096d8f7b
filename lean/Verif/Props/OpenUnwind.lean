import Verif.Proof.OpenUnwindParts
import Verif.Props.Open
import Verif.Props.UnwindDe

/-
C80: nothing undefined is ever seen, in whole runs with types that panic and catch panics.
-/
namespace SX.OpenUnwind
open SX.Open SX.UnwindDe Spec.OpenUnwind Spec.Open

variable {κ : Type} {τ α : κ → Type}

namespace ExW
open SX.Ex (q p)

/-- Values of all types of the example. -/
inductive Vl where
  | text (s : String)
  | kids (l : List (List Vl))
  | safe (o : Option (List Vl))
  | note (o : Option String)

def getKids : Vl → Option (List (List Vl))
  | .kids l => some l
  | _ => none

def getSafe : Vl → Option (Option (List Vl))
  | .safe o => some o
  | _ => none

def getNote : Vl → Option (Option String)
  | .note o => some o
  | _ => none

abbrev T : Unit → Type := fun _ => List (OCell Unit Vl)
abbrev A : Unit → Type := fun _ => List Vl

/-- A type written by hand: `T::deserialize` within `catch_unwind`, and an empty value if it panics. -/
def caught {σ β : Type} (D : PDeser σ (List β)) : PDeser σ (List β) := fun i =>
  match D i with
  | .done r => .done (safe r)
  | .readString k => .readString fun r => safe (k r)
  | .readTo sub k => .readTo sub fun sub r => safe (k sub r)
where
  safe : Ret VErr (List β) → Ret VErr (List β)
    | .panic => .ok []
    | r => r

/-- A type written by hand whose `deserialize` panics. -/
def touchy {σ : Type} : PDeser σ String := fun _ => .readString fun r =>
  match r with
  | .ok "boom" => .panic
  | .ok s => .ok s
  | .error e => .err e

/-- A struct with an attribute, with children of its own type, with one of its own type that is read within `catch_unwind`, and with a type that panics. -/
def fields (D : PDeser (States T) (List Vl)) : List (OField (States T × Bool) Unit Vl) :=
  [⟨⟨none, "n"⟩, .attribute ((deAttr fun s => .ok s).into .text), none⟩,
   ⟨⟨none, "kid"⟩, .element ((vec D).into .kids getKids), none⟩,
   ⟨⟨none, "safe"⟩, .element ((opt (caught D)).into .safe getSafe), none⟩,
   ⟨⟨none, "note"⟩, .element ((opt touchy).into .note getNote), none⟩]

/-- `finalize` calls none of the implementations that read. -/
def end_ : (k : Unit) → Ends (T k) (A k) := fun _ => ends (structRaw (fields fun _ => .done .panic))

def raw (junk : Junk T A) : (k : Unit) → Raw (States T × Bool) (T k) (A k) := fun _ => structRaw (fields (via end_ junk.value ()))

theorem raw_ends (junk : Junk T A) (k : Unit) : ends (raw junk k) = end_ k := by
  have h1 : (raw junk k).finalize = (end_ k).finalize := by
    funext cs _
    rcases cs with _ | ⟨_ | _, _ | ⟨_ | _, _ | ⟨_ | _, _ | ⟨_ | _, _⟩⟩⟩⟩ <;> rfl
  have h2 : (raw junk k).out = (end_ k).out := by
    funext cs
    rcases cs with _ | ⟨_ | _, _ | ⟨_ | _, _ | ⟨_ | _, _ | ⟨_ | _, _⟩⟩⟩⟩ <;> rfl
  have h3 : (raw junk k).new = (end_ k).new := rfl
  show Ends.mk _ _ _ = Ends.mk _ _ _
  rw [h1, h2, h3]
  rfl

theorem raw_sound (junk : Junk T A) (k : Unit) : Sound (raw junk k) := by
  refine C49_struct _ fun f hf raw hk => ?_
  simp only [fields, List.mem_cons, List.not_mem_nil, or_false] at hf
  rcases hf with rfl | rfl | rfl | rfl <;> cases hk

/-- `<r n="1"><kid n="2"><kid n="3"/></kid><safe n="4"><kid n="5"><note>boom</note></kid></safe><note>x</note></r>` -/
def doc : Spec.Doc :=
  { startPos := p 0, prolog := [],
    root := Spec.Elem.mk (q "r") [{ name := q "n", value := "1" }] [] (p 1)
      (.elem (q "kid") [{ name := q "n", value := "2" }] [] (p 2) (.elem (q "kid") [{ name := q "n", value := "3" }] [] (p 3) .nil (p 4) .nil) (p 5)
        (.elem (q "safe") [{ name := q "n", value := "4" }] [] (p 6)
          (.elem (q "kid") [{ name := q "n", value := "5" }] [] (p 7) (.elem (q "note") [] [] (p 8) (.chars "boom" false (p 9) .nil) (p 10) .nil) (p 11) .nil) (p 12)
          (.elem (q "note") [] [] (p 13) (.chars "x" false (p 14) .nil) (p 15) .nil))) (p 16),
    epilog := [], eofPos := p 17, epilogOk := by simp }

end ExW

/-! ## C80 -/

/-- C80: reading only sees visitors as calls of their methods leave them: implementations that do the same to these read the same, whatever else they do,
whatever the input, and wherever panics are caught. -/
theorem C80_reachable_only {κ σ α : Type} (I : κ → σ → Prop) (V V' : PVisitor σ) (S : SameVisitors I V V') (D D' : PDeser σ α)
    (hD : ∀ i, Same I (fun _ => True) (D i) (D' i)) (dbg : Bool) (input : Input) : UnwindDe.read dbg V D input = UnwindDe.read dbg V' D' input :=
  read_same S hD dbg input

/-- C80: a program of types that keep the contract of `RawDeserializeVisitor` (C49) never reads memory that is not initialized, and nothing else undefined
happens: if anything at all happened there, it would read the same. -/
theorem C80_program [DecidableEq κ] (e : (k : κ) → Ends (τ k) (α k)) (raw : Junk τ α → (k : κ) → Raw (States τ × Bool) (τ k) (α k))
    (he : ∀ junk k, ends (raw junk k) = e k) (hS : ∀ junk k, Sound (raw junk k))
    (hA : ∀ junk junk' k, AlikeRaw (Reached (raw junk)) (raw junk k) (raw junk' k)) (junk junk' : Junk τ α) (k : κ) (dbg : Bool) (input : Input) :
    UnwindDe.read dbg (visitor (raw junk) junk) (via e junk.value k) input = UnwindDe.read dbg (visitor (raw junk') junk') (via e junk'.value k) input :=
  program_same (hS junk) (hA junk junk') (he junk) junk junk' k dbg input

/-- C80: `impl_deserialize_via_raw!` of types that keep the contract does the same whatever uninitialized memory holds. -/
theorem C80_via [DecidableEq κ] (raw : (k : κ) → Raw (States τ × Bool) (τ k) (α k)) (hS : ∀ k, Sound (raw k)) (e : (k : κ) → Ends (τ k) (α k))
    (he : ∀ k, ends (raw k) = e k) (junk junk' : (k : κ) → Ret VErr (α k)) (k : κ) (i : ElemInfo) :
    Same (Reached raw) (fun _ => True) (via e junk k i) (via e junk' k i) := via_same hS he junk junk' k i

/-- C80: a derived struct does, if the types of its fields do; the same for a derived enum and the types of its payloads. -/
theorem C80_derived {τ' α' : Type} (I : κ → States τ → Prop) :
    (∀ fs fs' : List (OField (States τ × Bool) τ' α'), AlikeFields I fs fs' → AlikeRaw I (structRaw fs) (structRaw fs')) ∧
    ∀ (ident : String) (vs vs' : List (OVariant (States τ × Bool) α')), AlikeVariants I vs vs' → AlikeRaw I (enumRaw ident vs) (enumRaw ident vs') :=
  ⟨fun _ _ h => struct_alike h, fun _ _ _ h => enum_alike _ h⟩

/-- C80: fields of type `T`, `Option<T>` and `Vec<T>` do, if `T` does; also as some of the values of all fields. -/
theorem C80_fields {β α' : Type} (I : κ → States τ → Prop) (D D' : PDeser (States τ) β) (h : ∀ i, Same I (fun _ => True) (D i) (D' i)) :
    AlikeImpl I (one D) (one D') ∧ AlikeImpl I (opt D) (opt D') ∧ AlikeImpl I (vec D) (vec D') ∧
    ∀ impl impl' : FieldImpl (States τ × Bool) β, AlikeImpl I impl impl' → ∀ (inj : β → α') (get : α' → Option β), AlikeImpl I (impl.into inj get) (impl'.into inj get) :=
  ⟨one_alike h, opt_alike h, vec_alike h, fun _ _ hi inj get => into_alike hi inj get⟩

namespace ExW

theorem caught_same {I : Unit → States T → Prop} {D D' : PDeser (States T) (List Vl)} (h : ∀ i, Same I (fun _ => True) (D i) (D' i)) (i : ElemInfo) :
    Same I (fun _ => True) (caught D i) (caught D' i) := by
  have := h i
  unfold caught
  revert this
  generalize D i = a
  generalize D' i = a'
  intro h
  cases a <;> cases a' <;> first | exact h.elim | skip
  · exact ⟨congrArg _ h.1, trivial⟩
  · exact fun x => ⟨congrArg _ (h x).1, trivial⟩
  · obtain ⟨rfl, kind, h1, h2⟩ := h
    exact ⟨rfl, kind, h1, fun s r hs => ⟨congrArg _ (h2 s r hs).1, trivial⟩⟩

theorem touchy_same {I : Unit → States T → Prop} (i : ElemInfo) : Same I (fun _ => True) (touchy (σ := States T) i) (touchy i) := fun _ => ⟨rfl, trivial⟩

theorem raw_alike (junk junk' : Junk T A) (k : Unit) : AlikeRaw (Reached (raw junk)) (raw junk k) (raw junk' k) := by
  have hv := fun i => C80_via (raw junk) (raw_sound junk) end_ (raw_ends junk) junk.value junk'.value () i
  refine (C80_derived _).1 _ _ ⟨⟨rfl, rfl, rfl⟩, ⟨rfl, rfl, ?_⟩, ⟨rfl, rfl, ?_⟩, ⟨rfl, rfl, ?_⟩, trivial⟩
  · exact into_alike (vec_alike hv) _ _
  · exact into_alike (opt_alike (caught_same hv)) _ _
  · exact into_alike (opt_alike touchy_same) _ _

/-- The hypotheses of C80 hold for the example, whose types panic and catch panics: it reads the same whatever uninitialized memory holds. -/
example (junk junk' : Junk T A) (dbg : Bool) (input : Input) :
    UnwindDe.read dbg (visitor (raw junk) junk) (via end_ junk.value ()) input = UnwindDe.read dbg (visitor (raw junk') junk') (via end_ junk'.value ()) input :=
  C80_program end_ raw raw_ends raw_sound raw_alike junk junk' () dbg input

def noJunk : Junk T A := ⟨(⟨(), []⟩, .panic), (⟨(), []⟩, .panic), (⟨(), []⟩, .panic), fun _ => .panic⟩

/-- It reads a document in which a type panics within `catch_unwind`. -/
example : UnwindDe.read false (visitor (raw noJunk) noJunk) (via end_ noJunk.value ()) doc.input =
    .ok (.ok [.text "1", .kids [[.text "2", .kids [[.text "3", .kids [], .safe none, .note none]], .safe none, .note none]], .safe (some []), .note (some "x")]) :=
  rfl

end ExW

/-- C80: types of fields are told of panics as the reader tells it, and what the emitted code does with their answer (`f`) comes after. -/
theorem C80_told {σ ρ ρ' : Type} (a : PAction σ ρ) (f : ρ → ρ') : unflag ((flag a).map f) =
    match a with
    | .done r => .done (f r)
    | .readString k => .readString fun x => f (k x)
    | .readTo sub k => .readTo sub fun s r => f (k s r) := by
  cases a with
  | done r => rfl
  | readString k => rfl
  | readTo sub k =>
    refine congrArg (PAction.readTo sub) (funext fun s => funext fun r => ?_)
    rcases r with x | e | _ <;> rfl

/-- An action to which nothing is said of panics. -/
def unaware {σ ρ : Type} : PAction σ ρ → Action σ ρ
  | .done r => .done r
  | .readString k => .readString k
  | .readTo sub k => .readTo sub fun s r => k s (Spec.UnwindDe.retOf r)

/-- C80: the implementations for `T`, `Option<T>` and `Vec<T>` are those of C76, as long as what they read does not panic. -/
theorem C80_fields_agree {σ β : Type} (D : PDeser σ β) (i : ElemInfo) :
    (unaware (unflag ((one D).init i)) = (deOne (Spec.UnwindDe.plainD D)).init i ∧
      unaware (unflag ((opt D).init i)) = (deOpt (Spec.UnwindDe.plainD D)).init i ∧
      unaware (unflag ((vec D).init i)) = (deVec (Spec.UnwindDe.plainD D)).init i) ∧
    ((∀ v, unaware (unflag ((one D).update v i)) = (deOne (Spec.UnwindDe.plainD D)).update v i) ∧
      (∀ v, unaware (unflag ((opt D).update v i)) = (deOpt (Spec.UnwindDe.plainD D)).update v i) ∧
      ∀ l, unaware (unflag ((vec D).update l i)) = (deVec (Spec.UnwindDe.plainD D)).update l i) ∧
    ∀ n, (one D).missing n = (deOne (Spec.UnwindDe.plainD D)).missing n ∧ (opt D).missing n = (deOpt (Spec.UnwindDe.plainD D)).missing n ∧
      (vec D).missing n = (deVec (Spec.UnwindDe.plainD D)).missing n := by
  have hd : ∀ r : Ret VErr β, deserRet (Spec.UnwindDe.faultOf r) = r := by rintro (_ | _ | _) <;> rfl
  refine ⟨⟨?_, ?_, ?_⟩, ⟨fun _ => rfl, fun _ => rfl, fun l => ?_⟩, fun _ => ⟨rfl, rfl, rfl⟩⟩ <;>
    simp only [one, opt, vec, deOne, deOpt, deVec, Spec.UnwindDe.plainD] <;>
    cases D i with
    | done r =>
      simp only [flag, unflag, unaware, Action.map, hd]
      try rfl
    | readString k =>
      simp only [flag, unflag, unaware, Action.map, hd]
      try rfl
    | readTo sub k =>
      simp only [flag, unflag, unaware, Action.map, hd]
      refine congrArg (Action.readTo sub) (funext fun s => funext fun r => ?_)
      cases r <;> rfl

/-- C80: visitors of a program, and `impl_deserialize_via_raw!`, are those of C76, as long as nothing undefined happens and nothing panics; panics of what is read go
on as panics. -/
theorem C80_agrees [DecidableEq κ] (raw : (k : κ) → Raw (States τ × Bool) (τ k) (α k)) (e : (k : κ) → Ends (τ k) (α k)) (he : ∀ k, ends (raw k) = e k)
    (junk : Junk τ α) (k : κ) (t : τ k) :
    (∀ n v y, (raw k).attr t n v = .ok y →
      Spec.UnwindDe.faultWith ((visitor raw junk).onAttr ⟨k, t⟩ n v) = heardText (fun t => ⟨k, t⟩) (.ok y)) ∧
    (∀ s pos y, (raw k).characters t s pos = .ok y →
      Spec.UnwindDe.faultWith ((visitor raw junk).onChars ⟨k, t⟩ s pos) = heardText (fun t => ⟨k, t⟩) (.ok y)) ∧
    (∀ info t', (raw k).element t info = .ok (.back t') → (visitor raw junk).onElem ⟨k, t⟩ info = .done (⟨k, t'⟩, .ok ())) ∧
    (∀ info a, (raw k).element t info = .ok (.take a) → ∃ f, (visitor raw junk).onElem ⟨k, t⟩ info = unflag (a.map f) ∧
      ∀ y, Spec.UnwindDe.faultWith (f (.ok y)) = heardRead (fun t => ⟨k, t⟩) (.ok y)) ∧
    ∀ info, ∃ c, via e junk.value k info = .readTo ⟨k, (raw k).new⟩ c ∧ (∀ s, c s .panic = .panic) ∧ (∀ s x, c s (.err x) = .err x) ∧
      ∀ x, finishRaw (raw k) t ≠ .error .ub → (∀ f, (raw k).finalize t none ≠ .error f) → Spec.UnwindDe.faultOf (c ⟨k, t⟩ (.ok x)) = finishRaw (raw k) t := by
  refine ⟨fun n v y h => ?_, fun s pos y h => ?_, fun info t' h => ?_, fun info a h => ?_, fun info => ?_⟩
  · simp only [visitor, h]
    rcases y with ⟨t1, _ | _ | _⟩ <;> rfl
  · simp only [visitor, h]
    rcases y with ⟨t1, _ | _ | _⟩ <;> rfl
  · simp only [visitor, h]
    rfl
  · refine ⟨wasRead junk.elem k, by simp only [visitor, h]; rfl, ?_⟩
    rintro ⟨t1, _ | _ | _⟩ <;> rfl
  · refine ⟨_, by rw [show (raw k).new = (e k).new from congrArg Ends.new (he k)]; rfl, fun _ => rfl, fun _ _ => rfl, fun x h1 h2 => ?_⟩
    simp only [dif_pos, ← he k, conclude, ends]
    revert h1 h2
    unfold finishRaw
    rcases (raw k).finalize t none with f | ⟨t1, _ | e | _⟩ <;> simp only <;> intro h1 h2
    · exact absurd rfl (h2 f)
    · revert h1
      rcases (raw k).out t1 with _ | v <;> intro h1
      · exact absurd rfl h1
      · rfl
    · rfl
    · rfl

/-- For the example: its struct refuses a second attribute `n`. -/
example (junk : Junk ExW.T ExW.A) (t : ExW.T ()) (ht : t = [.plain true (some (.text "1")), .plain false none, .plain false none, .plain false none]) :
    Spec.UnwindDe.faultWith ((visitor (ExW.raw junk) junk).onAttr ⟨(), t⟩ ⟨"", "n"⟩ "2") = .ok (⟨(), t⟩, .error (.wrap (.duplicateAttribute ⟨"", "n"⟩))) :=
  (C80_agrees (ExW.raw junk) ExW.end_ (ExW.raw_ends junk) junk () t).1 ⟨"", "n"⟩ "2" (t, .err (.wrap (.duplicateAttribute ⟨"", "n"⟩)))
    (by
      subst ht
      have h0 : Open.attrNames (ExW.fields (via ExW.end_ junk.value ())) 0 = [(0, ⟨none, "n"⟩)] := rfl
      have h : lookup ⟨"", "n"⟩ (structTable (Open.attrNames (ExW.fields (via ExW.end_ junk.value ())) 0)) = .ok (some 0) := by rw [h0]; rfl
      show Open.structAttribute _ _ _ _ = _
      simp only [Open.structAttribute, h]
      rfl)

/-- C80: the contract is needed: with a type whose `finalize` returns `Ok` without having initialized the memory, what is read is what happened to be there. -/
theorem C80_contract_needed : ∃ (e : Unit → Ends Unit Nat) (raw : (k : Unit) → Raw (States (fun _ : Unit => Unit) × Bool) Unit Nat)
    (junk junk' : Junk (fun _ : Unit => Unit) (fun _ => Nat)) (input : Input),
    (∀ k, ends (raw k) = e k) ∧ (∀ k, ¬ Sound (raw k)) ∧
    UnwindDe.read false (visitor raw junk) (via e junk.value ()) input ≠ UnwindDe.read false (visitor raw junk') (via e junk'.value ()) input := by
  refine ⟨fun _ => ⟨(), fun _ _ => .ok ((), .ok ()), fun _ => none⟩,
    fun _ => ⟨(), fun _ _ v => .ok ((), .ok (some v)), fun _ s _ => .ok ((), .ok (some s)), fun _ _ => .ok (.back ()), fun _ _ => .ok ((), .ok ()), fun _ => none⟩,
    ⟨(⟨(), ()⟩, .panic), (⟨(), ()⟩, .panic), (⟨(), ()⟩, .panic), fun _ => .ok 1⟩,
    ⟨(⟨(), ()⟩, .panic), (⟨(), ()⟩, .panic), (⟨(), ()⟩, .panic), fun _ => .ok 2⟩, ExW.doc.input, fun _ => rfl, fun _ h => ?_, ?_⟩
  · obtain ⟨t, h1, h2⟩ := h []
    obtain ⟨t', r, h3, h4⟩ := h2 none
    cases h3
    obtain ⟨v, hv⟩ := h4 rfl
    cases hv
  · intro h
    have h1 : (Except.ok (Ret.ok 1) : Except Fault (Ret Error Nat)) = .ok (.ok 2) := h
    cases h1

end SX.OpenUnwind
