import Verif.Proof.PanicAsParts
import Verif.Props.Failures

/-
C83: where a program panics.
-/
namespace SX.OpenUnwind
open SX.Open SX.UnwindDe Spec.Failures Spec.PanicAs

variable [Mark] {κ : Type} {τ α : κ → Type}

/-! ## C83 -/

theorem sim_iff {β : Type} {x y : Except Fault (Ret Error β)} (h : LikeFault Sim x y) :
    (∀ f, x = .error f ↔ y = .error f) ∧ (∀ a, x = .ok (.ok a) ↔ y = .ok (.ok a)) ∧
    (∀ E, x = .ok (.err E) ↔ y = .ok (.err E) ∧ ¬ stands E) ∧
    (x = .ok .panic ↔ ∃ E, y = .ok (.err E) ∧ stands E) ∧ y ≠ .ok .panic := by
  rcases x with f | r <;> rcases y with f' | r' <;> first | exact h.elim | skip
  · cases h
    simp
  · have h : Sim r r' := h
    cases h with
    | ok a => simp
    | err e he =>
      refine ⟨by simp, by simp, fun E => ⟨fun h => ?_, fun h => h.1⟩, ⟨(fun h => by cases h), ?_⟩, by simp⟩
      · cases h; exact ⟨rfl, he⟩
      · rintro ⟨E, h, h'⟩
        cases h
        exact absurd h' he
    | panic e he =>
      refine ⟨by simp, by simp, fun E => ⟨(fun h => by cases h), ?_⟩, ⟨fun _ => ⟨e, rfl, he⟩, fun _ => rfl⟩, by simp⟩
      rintro ⟨h, h'⟩
      cases h
      exact absurd he h'

/-- C83: a panic goes where an error would go.  Let a program do what another does, but return an error that nothing else returns where the other panics; let both
treat that error as the other treats panics.  Then `read` panics exactly if the error is returned instead, and otherwise both return the same value, or the same
error. -/
theorem C83_read {σ α : Type} (V V' : PVisitor σ) (S : SimVisitors V V') (D D' : PDeser σ α) (hD : ∀ i, SimP Sim (D i) (D' i)) (dbg : Bool) (input : Input) :
    (∀ f, UnwindDe.read dbg V D input = .error f ↔ UnwindDe.read dbg V' D' input = .error f) ∧
    (∀ a, UnwindDe.read dbg V D input = .ok (.ok a) ↔ UnwindDe.read dbg V' D' input = .ok (.ok a)) ∧
    (∀ E, UnwindDe.read dbg V D input = .ok (.err E) ↔ UnwindDe.read dbg V' D' input = .ok (.err E) ∧ ¬ stands E) ∧
    (UnwindDe.read dbg V D input = .ok .panic ↔ ∃ E, UnwindDe.read dbg V' D' input = .ok (.err E) ∧ stands E) ∧
    UnwindDe.read dbg V' D' input ≠ .ok .panic := sim_iff (read_sim S hD dbg input)

/-- C83: and the panic leaves the reader where the error would leave it: after `deserialize` of any element, at the same event, at the same depth and with the same
stack. -/
theorem C83_place {σ α : Type} (V V' : PVisitor σ) (S : SimVisitors V V') (D D' : PDeser σ α) (hD : ∀ i, SimP Sim (D i) (D' i)) (dbg : Bool) (fuel : Nat)
    (er : ElemReader) (s : RState) :
    (∀ s', UnwindDe.runDeser dbg V D fuel er s = .ok (.panic, s') ↔ ∃ e, UnwindDe.runDeser dbg V' D' fuel er s = .ok (.err e, s') ∧ stands e) ∧
    (∀ a s', UnwindDe.runDeser dbg V D fuel er s = .ok (.ok a, s') ↔ UnwindDe.runDeser dbg V' D' fuel er s = .ok (.ok a, s')) ∧
    ∀ e s', UnwindDe.runDeser dbg V D fuel er s = .ok (.err e, s') ↔ UnwindDe.runDeser dbg V' D' fuel er s = .ok (.err e, s') ∧ ¬ stands e := by
  have h := runDeser_sim S hD dbg fuel er s
  revert h
  generalize UnwindDe.runDeser dbg V D fuel er s = x
  generalize UnwindDe.runDeser dbg V' D' fuel er s = y
  intro h
  rcases x with f | ⟨r, s1⟩ <;> rcases y with f' | ⟨r', s2⟩ <;> first | exact h.elim | skip
  · simp
  · obtain ⟨h1, h2⟩ := h
    simp only at h1 h2
    subst h2
    cases h1 with
    | ok a => simp
    | err e he =>
      refine ⟨fun s' => ⟨(fun h => by cases h), ?_⟩, by simp, fun e' s' => ⟨fun h => ?_, fun h => h.1⟩⟩
      · rintro ⟨_, h, h'⟩
        cases h
        exact absurd h' he
      · cases h
        exact ⟨rfl, he⟩
    | panic e he =>
      refine ⟨fun s' => ⟨fun h => ?_, ?_⟩, by simp, fun e' s' => ⟨(fun h => by cases h), ?_⟩⟩
      · cases h
        exact ⟨e, rfl, he⟩
      · rintro ⟨_, h, _⟩
        cases h
        rfl
      · rintro ⟨h, h'⟩
        cases h
        exact absurd he h'

/-- C83: such programs are derived structs and enums, if the types of their fields are. -/
theorem C83_derived {σ τ' α' : Type} :
    (∀ fs fs' : List (OField (σ × Bool) τ' α'), SimFields fs fs' → SimRaw (structRaw fs) (structRaw fs')) ∧
    ∀ (ident : String) (vs vs' : List (OVariant (σ × Bool) α')), SimVariants vs vs' → SimRaw (enumRaw ident vs) (enumRaw ident vs') :=
  ⟨fun _ _ h => struct_sim h, fun _ _ _ h => enum_sim _ h⟩

/-- C83: fields of type `T`, `Option<T>`, `Vec<T>`, and attributes, if `T` is. -/
theorem C83_fields {σ β α' : Type} (D D' : PDeser σ β) (h : ∀ i, SimP Sim (D i) (D' i)) (parse parse' : String → Ret DErr β) (hp : ∀ s, Sim (parse s) (parse' s)) :
    SimImpl (one D) (one D') ∧ SimImpl (opt D) (opt D') ∧ SimImpl (vec D) (vec D') ∧
    SimAttr (deAttr parse) (deAttr parse') ∧ SimAttr (deAttrOpt parse) (deAttrOpt parse') ∧
    (∀ impl impl' : FieldImpl (σ × Bool) β, SimImpl impl impl' → ∀ (inj : β → α') (get : α' → Option β),
      SimImpl (impl.into inj get) (markImpl (impl'.into inj get))) ∧
    ∀ impl impl' : AttrImpl β, SimAttr impl impl' → ∀ inj : β → α', SimAttr (impl.into inj) (impl'.into inj) :=
  ⟨one_sim h, opt_sim h, vec_sim h, deAttr_sim hp, deAttrOpt_sim hp, fun _ _ hi inj get => into_sim hi inj get, fun _ _ hi inj => attr_into_sim hi inj⟩

/-- C83: and `impl_deserialize_via_raw!`. -/
theorem C83_via [DecidableEq κ] (raw raw' : (k : κ) → Raw (States τ × Bool) (τ k) (α k)) (e e' : (k : κ) → Ends (τ k) (α k)) (he : ∀ k, ends (raw k) = e k)
    (he' : ∀ k, ends (raw' k) = e' k) (h : ∀ k, SimRaw (raw k) (raw' k)) (junk junk' : (k : κ) → Ret VErr (α k)) (hj : ∀ k, Sim (junk k) (junk' k))
    (k : κ) (i : ElemInfo) : SimP Sim (via e junk k i) (via e' junk' k i) := via_sim he he' h hj k i

/-- C83: so a program of derived types panics exactly if it would return the error in place of the panic. -/
theorem C83_program [DecidableEq κ] (raw raw' : (k : κ) → Raw (States τ × Bool) (τ k) (α k)) (e e' : (k : κ) → Ends (τ k) (α k)) (he : ∀ k, ends (raw k) = e k)
    (he' : ∀ k, ends (raw' k) = e' k) (h : ∀ k, SimRaw (raw k) (raw' k)) (junk junk' : Junk τ α) (hj : SimJunk junk junk') (k : κ) (dbg : Bool) (input : Input) :
    (UnwindDe.read dbg (visitor raw junk) (via e junk.value k) input = .ok .panic ↔
      ∃ E, UnwindDe.read dbg (visitor raw' junk') (via e' junk'.value k) input = .ok (.err E) ∧ stands E) ∧
    (∀ E, UnwindDe.read dbg (visitor raw junk) (via e junk.value k) input = .ok (.err E) ↔
      UnwindDe.read dbg (visitor raw' junk') (via e' junk'.value k) input = .ok (.err E) ∧ ¬ stands E) ∧
    ∀ a, UnwindDe.read dbg (visitor raw junk) (via e junk.value k) input = .ok (.ok a) ↔
      UnwindDe.read dbg (visitor raw' junk') (via e' junk'.value k) input = .ok (.ok a) := by
  obtain ⟨_, h2, h3, h4, _⟩ := C83_read _ _ (visitor_sim h hj) _ _ (fun i => via_sim he he' h hj.value k i) dbg input
  exact ⟨h4, h3, h2⟩

namespace ExM
open SX.Ex (q p)
open OpenUnwind.ExW (Vl T A getKids getSafe getNote)

/-- Like `ExW.touchy`, which panics; this returns the error. -/
def marked {σ : Type} : PDeser σ String := fun _ => .readString fun r =>
  match r with
  | .ok "boom" => .err (.wrap (.user Mark.msg))
  | .ok s => .ok s
  | .error e => .err e

/-- `ExF.fields`, with the error in place of panics. -/
def fields (N : PDeser (States T) String) (D : PDeser (States T) (List Vl)) : List (OField (States T × Bool) Unit Vl) :=
  [⟨⟨none, "n"⟩, .attribute ((deAttr fun s => .ok s).into .text), none⟩,
   ⟨⟨none, "kid"⟩, .element (markImpl ((vec D).into .kids getKids)), none⟩,
   ⟨⟨none, "safe"⟩, .element (markImpl ((opt (ExF.attempt D)).into .safe getSafe)), none⟩,
   ⟨⟨none, "note"⟩, .element (markImpl ((opt N).into .note getNote)), none⟩]

def junk' : Junk T A :=
  ⟨(⟨(), []⟩, .err (.wrap (.user Mark.msg))), (⟨(), []⟩, .err (.user Mark.msg)), (⟨(), []⟩, .err (.wrap (.user Mark.msg))), fun _ => .err (.wrap (.user Mark.msg))⟩

def raw (N : PDeser (States T) String) : (k : Unit) → Raw (States T × Bool) (T k) (A k) := fun _ => structRaw (fields N (via ExW.end_ junk'.value ()))

theorem raw_ends (N : PDeser (States T) String) (k : Unit) : ends (raw N k) = ExW.end_ k := by
  have h1 : (raw N k).finalize = (ExW.end_ k).finalize := by
    funext cs _
    rcases cs with _ | ⟨_ | _, _ | ⟨_ | _, _ | ⟨_ | _, _ | ⟨_ | _, _⟩⟩⟩⟩ <;> rfl
  have h2 : (raw N k).out = (ExW.end_ k).out := by
    funext cs
    rcases cs with _ | ⟨_ | _, _ | ⟨_ | _, _ | ⟨_ | _, _ | ⟨_ | _, _⟩⟩⟩⟩ <;> rfl
  have h3 : (raw N k).new = (ExW.end_ k).new := rfl
  show Ends.mk _ _ _ = Ends.mk _ _ _
  rw [h1, h2, h3]
  rfl

theorem junk_sim : SimJunk ExW.noJunk junk' := ⟨⟨rfl, .panic _ rfl⟩, ⟨rfl, .panic _ rfl⟩, ⟨rfl, .panic _ rfl⟩, fun _ => .panic _ rfl⟩

theorem marked_sim (i : ElemInfo) : SimP Sim (ExW.touchy (σ := States T) i) (marked i) := by
  rintro (e | s) hx
  · exact .err _ hx
  · by_cases h : s = "boom"
    · subst h; exact .panic _ rfl
    · show Sim (match (Except.ok s : Except VErr String) with | .ok "boom" => Ret.panic | .ok s => .ok s | .error e => .err e)
        (match (Except.ok s : Except VErr String) with | .ok "boom" => Ret.err (.wrap (.user Mark.msg)) | .ok s => .ok s | .error e => .err e)
      simp only
      exact .ok _

theorem attempt_sim {D D' : PDeser (States T) (List Vl)} (h : ∀ i, SimP Sim (D i) (D' i)) (i : ElemInfo) : SimP Sim (ExF.attempt D i) (ExF.attempt D' i) := by
  have hs : ∀ r r' : Ret VErr (List Vl), Sim r r' → Sim (ExF.attempt.safe r) (ExF.attempt.safe r') := by
    intro r r' hr
    cases hr <;> exact .ok _
  have := h i
  unfold ExF.attempt
  revert this
  generalize D i = a
  generalize D' i = a'
  intro h
  cases a <;> cases a' <;> first | exact h.elim | skip
  · exact hs _ _ h
  · exact fun x hx => hs _ _ (h x hx)
  · exact ⟨h.1, fun s r r' hr => hs _ _ (h.2 s r r' hr)⟩

theorem raw_sim (k : Unit) : SimRaw (ExF.raw ExW.touchy k) (raw marked k) := by
  have hv : ∀ i, SimP Sim (via ExW.end_ ExW.noJunk.value () i) (via ExW.end_ junk'.value () i) := by
    refine fun i => ⟨rfl, fun s r r' hr => ?_⟩
    cases hr with
    | err e he => exact .err _ he
    | panic e he => exact .panic _ he
    | ok v =>
      obtain ⟨⟨⟩, cs⟩ := s
      simp only [conclude, ExW.end_, ends]
      rcases h : (structRaw (ExW.fields fun _ => .done .panic)).finalize cs none with f | ⟨t, r⟩
      · exact .panic _ rfl
      · have hr : (∃ e, r = .err (.wrap e) ∧ ∀ m, e ≠ .user m) ∨ r = .ok () := by
          revert h
          rcases cs with _ | ⟨⟨_ | _, c1⟩ | _, _ | ⟨⟨_ | _, c2⟩ | _, _ | ⟨⟨_ | _, c3⟩ | _, _ | ⟨⟨_ | _, c4⟩ | _, cs⟩⟩⟩⟩ <;>
            (try cases c1) <;> (try cases c2) <;> (try cases c3) <;> (try cases c4) <;> intro h <;> cases h <;>
            first | exact .inr rfl | exact .inl ⟨_, rfl, fun m h => by cases h⟩
        rcases hr with ⟨e, rfl, he⟩ | rfl
        · exact .err _ fun h => he _ h
        · simp only
          rcases (structRaw (ExW.fields fun _ => .done .panic)).out t with _ | v
          · exact .panic _ rfl
          · exact .ok _
  refine C83_derived.1 _ _ ⟨⟨rfl, ⟨rfl, fun h => by cases h⟩, ?_⟩, ⟨rfl, ⟨rfl, fun h => by cases h⟩, ?_⟩, ⟨rfl, ⟨rfl, fun h => by cases h⟩, ?_⟩,
    ⟨rfl, ⟨rfl, fun h => by cases h⟩, ?_⟩, trivial⟩
  · exact attr_into_sim (deAttr_sim fun _ => .ok _) _
  · exact into_sim (vec_sim hv) _ _
  · exact into_sim (opt_sim (attempt_sim hv)) _ _
  · exact into_sim (opt_sim marked_sim) _ _

/-- `<r n="1"><safe n="2"><note>boom</note></safe><kid n="3"><note>boom</note></kid></r>` -/
def doc : Spec.Doc :=
  { startPos := p 0, prolog := [],
    root := Spec.Elem.mk (q "r") [{ name := q "n", value := "1" }] [] (p 1)
      (.elem (q "safe") [{ name := q "n", value := "2" }] [] (p 2) (.elem (q "note") [] [] (p 3) (.chars "boom" false (p 4) .nil) (p 5) .nil) (p 6)
        (.elem (q "kid") [{ name := q "n", value := "3" }] [] (p 7) (.elem (q "note") [] [] (p 8) (.chars "boom" false (p 9) .nil) (p 10) .nil) (p 11) .nil)) (p 12),
    epilog := [], eofPos := p 13, epilogOk := by simp }

end ExM

/-- C83: that nothing else returns the error is needed: a program that does would return it where the other program does not panic. -/
theorem C83_own_error_needed : ∃ (V : PVisitor Unit) (D : PDeser Unit Unit) (input : Input) (E : Error),
    UnwindDe.read false V D input = .ok (.err E) ∧ UnwindDe.read false V D input ≠ .ok .panic ∧
    UnwindDe.read false (erring (.wrap (.user Mark.msg)) (.user Mark.msg) V) (erringD (.wrap (.user Mark.msg)) D) input = .ok (.err E) ∧ stands E :=
  ⟨⟨fun v _ _ => (v, .ok ()), fun v _ _ => (v, .ok ()), fun v _ => .done (v, .ok ())⟩, fun _ => .done (.err (.wrap (.user Mark.msg))), ExM.doc.input, _, rfl,
    (fun h => by cases h), rfl, _, rfl, rfl⟩

/-- A type of the example, and an attribute parser that panics or returns the error. -/
example := C83_fields (α' := String) (ExW.touchy (σ := States ExW.T)) ExM.marked ExM.marked_sim
  (fun s => if s = "" then .panic else .ok s) (fun s => if s = "" then .err (.user Mark.msg) else .ok s)
  (fun s => by
    by_cases h : s = ""
    · simp only [if_pos h]; exact .panic _ rfl
    · simp only [if_neg h]; exact .ok _)

end SX.OpenUnwind

namespace SX.OpenUnwind.ExM
open SX.Open SX.UnwindDe Spec.Failures Spec.PanicAs
open SX.Ex (q p)

local instance : Mark := ⟨"panicked"⟩

/-- The hypotheses of C83 hold for a struct with a type that panics, in a field and within one that catches panics.  On the document above the first panic is
caught; the error that stands for the second one says where it is. -/
example : UnwindDe.read false (visitor (ExF.raw ExW.touchy) ExW.noJunk) (via ExW.end_ ExW.noJunk.value ()) doc.input = .ok .panic := by
  refine (C83_program (ExF.raw ExW.touchy) (raw marked) ExW.end_ ExW.end_ (ExF.raw_ends _) (raw_ends _) raw_sim ExW.noJunk junk' junk_sim () false doc.input).1.mpr
    ⟨{ kind := .deserializer (.user Mark.msg), stack := [⟨q "r", p 1⟩, ⟨q "kid", p 7⟩, ⟨q "note", p 8⟩], pos := p 8 }, ?_, _, rfl, rfl⟩
  rfl

end SX.OpenUnwind.ExM
