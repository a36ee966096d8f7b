import Verif.Proof.FailuresParts
import Verif.Props.OpenUnwind

/-
C81: a panic has no other effect than an error would have.
-/
namespace SX.OpenUnwind
open SX.Open SX.UnwindDe Spec.Failures Spec.Open

namespace ExF
open SX.Ex (q p)
open ExW (Vl T A getKids getSafe getNote)

/-- A type written by hand: `T::deserialize` within `catch_unwind`, and an empty value if it panics or fails. -/
def attempt {σ β : Type} (D : PDeser σ (List β)) : PDeser σ (List β) := fun i =>
  match D i with
  | .done r => .done (safe r)
  | .readString k => .readString fun r => safe (k r)
  | .readTo sub k => .readTo sub fun sub r => safe (k sub r)
where
  safe : Ret VErr (List β) → Ret VErr (List β)
    | .ok v => .ok v
    | _ => .ok []

/-- Like `ExW.touchy`, which panics; this returns an error. -/
def picky {σ : Type} : PDeser σ String := fun _ => .readString fun r =>
  match r with
  | .ok "boom" => .err (.wrap (.user "no"))
  | .ok s => .ok s
  | .error _ => .err (.wrap (.user "text expected"))

/-- A recursive struct that reads one of its fields within `catch_unwind`. -/
def fields (N : PDeser (States T) String) (D : PDeser (States T) (List Vl)) : List (OField (States T × Bool) Unit Vl) :=
  [⟨⟨none, "n"⟩, .attribute ((deAttr fun s => .ok s).into .text), none⟩,
   ⟨⟨none, "kid"⟩, .element ((vec D).into .kids getKids), none⟩,
   ⟨⟨none, "safe"⟩, .element ((opt (attempt D)).into .safe getSafe), none⟩,
   ⟨⟨none, "note"⟩, .element ((opt N).into .note getNote), none⟩]

def raw (N : PDeser (States T) String) : (k : Unit) → Raw (States T × Bool) (T k) (A k) := fun _ => structRaw (fields N (via ExW.end_ ExW.noJunk.value ()))

theorem raw_ends (N : PDeser (States T) String) (k : Unit) : ends (raw N k) = ExW.end_ k := by
  have h1 : (raw N k).finalize = (ExW.end_ k).finalize := by
    funext cs _
    rcases cs with _ | ⟨_ | _, _ | ⟨_ | _, _ | ⟨_ | _, _ | ⟨_ | _, _⟩⟩⟩⟩ <;> rfl
  have h2 : (raw N k).out = (ExW.end_ k).out := by
    funext cs
    rcases cs with _ | ⟨_ | _, _ | ⟨_ | _, _ | ⟨_ | _, _ | ⟨_ | _, _⟩⟩⟩⟩ <;> rfl
  have h3 : (raw N k).new = (ExW.end_ k).new := rfl
  show Ends.mk _ _ _ = Ends.mk _ _ _
  rw [h1, h2, h3]
  rfl

theorem attempt_like {D D' : PDeser (States T) (List Vl)} (h : ∀ i, LikeP Like (D i) (D' i)) (i : ElemInfo) : LikeP Like (attempt D i) (attempt D' i) := by
  have hs : ∀ r r' : Ret VErr (List Vl), Like r r' → Like (attempt.safe r) (attempt.safe r') := by
    rintro (v | e | _) (v' | e' | _) hr <;> cases hr <;> exact rfl
  have := h i
  unfold attempt
  revert this
  generalize D i = a
  generalize D' i = a'
  intro h
  cases a <;> cases a' <;> first | exact h.elim | skip
  · exact hs _ _ h
  · exact fun x => hs _ _ (h x)
  · exact ⟨h.1, fun s r r' hr => hs _ _ (h.2 s r r' hr)⟩

theorem picky_like (i : ElemInfo) : LikeP Like (ExW.touchy (σ := States T) i) (picky i) := by
  rintro (e | s)
  · exact rfl
  · by_cases h : s = "boom"
    · subst h; exact rfl
    · show value _ = value _
      simp [h]

end ExF

variable {κ : Type} {τ α : κ → Type}

/-! ## C81 -/

/-- C81: programs that differ at most in which errors they return and in whether they return an error or panic, and which treat all failures alike, read the
same values, and fail for the same inputs. -/
theorem C81_read {σ α : Type} (V V' : PVisitor σ) (S : LikeVisitors V V') (D D' : PDeser σ α) (hD : ∀ i, LikeP Like (D i) (D' i)) (dbg : Bool) (input : Input) :
    LikeFault Like (UnwindDe.read dbg V D input) (UnwindDe.read dbg V' D' input) := read_like S hD dbg input

/-- C81: a panic does to what is read and to all visitors what an error would have done: if visitors and implementations treat panics of what they read like
errors, errors can be returned everywhere in place of panics; what is read is the same, and where `read` panicked it returns an error. -/
theorem C81_panic_as_error {σ α : Type} (V : PVisitor σ) (S : LikeVisitors V V) (D : PDeser σ α) (hD : ∀ i, LikeP Like (D i) (D i)) (e : VErr) (d : DErr)
    (dbg : Bool) (input : Input) :
    (∀ f, UnwindDe.read dbg V D input = .error f ↔ UnwindDe.read dbg (erring e d V) (erringD e D) input = .error f) ∧
    (∀ a, UnwindDe.read dbg V D input = .ok (.ok a) ↔ UnwindDe.read dbg (erring e d V) (erringD e D) input = .ok (.ok a)) ∧
    ((∃ x, UnwindDe.read dbg V D input = .ok (.err x)) ∨ UnwindDe.read dbg V D input = .ok .panic ↔
      ∃ x, UnwindDe.read dbg (erring e d V) (erringD e D) input = .ok (.err x)) := by
  have hn : ∀ {ε α : Type} (x : ε) (r r' : Ret ε α), Like r r' → Like r (noPanic x r') := by
    rintro ε α x (_ | _ | _) (_ | _ | _) h <;> cases h <;> rfl
  have hS : LikeVisitors V (erring e d V) := by
    refine ⟨fun v n s => ⟨rfl, hn _ _ _ rfl⟩, fun v s p => ⟨rfl, hn _ _ _ rfl⟩, fun v i => ?_⟩
    have := S.elem v i
    unfold erring
    simp only
    revert this
    generalize V.onElem v i = a
    intro h
    cases a with
    | done r => exact ⟨rfl, hn _ _ _ rfl⟩
    | readString k => exact fun x => ⟨rfl, hn _ _ _ rfl⟩
    | readTo sub k => exact ⟨rfl, fun s r r' hr => ⟨(h.2 s r r' hr).1, hn _ _ _ (h.2 s r r' hr).2⟩⟩
  have hE : ∀ i, LikeP Like (D i) (erringD e D i) := by
    intro i
    have := hD i
    unfold erringD
    revert this
    generalize D i = a
    intro h
    cases a with
    | done r => exact hn _ _ _ rfl
    | readString k => exact fun x => hn _ _ _ rfl
    | readTo sub k => exact ⟨rfl, fun s r r' hr => hn _ _ _ (h.2 s r r' hr)⟩
  have hcalm : UnwindDe.read dbg (erring e d V) (erringD e D) input ≠ .ok .panic := by
    refine read_calm (fun i => ?_) dbg input
    unfold erringD
    cases D i with
    | done r => exact noPanic_calm _ _
    | readString k => exact fun x => noPanic_calm _ _
    | readTo sub k => exact fun s r => noPanic_calm _ _
  have h := read_like hS hE dbg input
  revert h hcalm
  rcases UnwindDe.read dbg V D input with f | (a | x | _) <;>
    rcases UnwindDe.read dbg (erring e d V) (erringD e D) input with f' | (a' | x' | _) <;> intro hc h <;> first | exact absurd rfl hc | exact h.elim | cases h
  all_goals simp

/-- C81: derived structs and enums leave their memory and flags the same whether the type of a field panics or returns an error: they differ at most in how they
fail if the types of their fields do. -/
theorem C81_derived {σ τ' α' : Type} :
    (∀ fs fs' : List (OField (σ × Bool) τ' α'), LikeFields fs fs' → LikeRaw (structRaw fs) (structRaw fs')) ∧
    ∀ (ident : String) (vs vs' : List (OVariant (σ × Bool) α')), LikeVariants vs vs' → LikeRaw (enumRaw ident vs) (enumRaw ident vs') :=
  ⟨fun _ _ h => struct_like h, fun _ _ _ h => enum_like _ h⟩

/-- C81: the same for fields of type `T`, `Option<T>`, `Vec<T>`, and for attributes. -/
theorem C81_fields {σ β α' : Type} (D D' : PDeser σ β) (h : ∀ i, LikeP Like (D i) (D' i)) (parse parse' : String → Ret DErr β) (hp : ∀ s, Like (parse s) (parse' s)) :
    LikeImpl (one D) (one D') ∧ LikeImpl (opt D) (opt D') ∧ LikeImpl (vec D) (vec D') ∧
    LikeAttr (deAttr parse) (deAttr parse') ∧ LikeAttr (deAttrOpt parse) (deAttrOpt parse') ∧
    (∀ impl impl' : FieldImpl (σ × Bool) β, LikeImpl impl impl' → ∀ (inj : β → α') (get : α' → Option β), LikeImpl (impl.into inj get) (impl'.into inj get)) ∧
    ∀ impl impl' : AttrImpl β, LikeAttr impl impl' → ∀ inj : β → α', LikeAttr (impl.into inj) (impl'.into inj) :=
  ⟨one_like h, opt_like h, vec_like h, deAttr_like hp, deAttrOpt_like hp, fun _ _ hi inj get => into_like hi inj get, fun _ _ hi inj => attr_into_like hi inj⟩

/-- C81: the same for `impl_deserialize_via_raw!`. -/
theorem C81_via [DecidableEq κ] (raw raw' : (k : κ) → Raw (States τ × Bool) (τ k) (α k)) (e e' : (k : κ) → Ends (τ k) (α k)) (he : ∀ k, ends (raw k) = e k)
    (he' : ∀ k, ends (raw' k) = e' k) (h : ∀ k, LikeRaw (raw k) (raw' k)) (junk : (k : κ) → Ret VErr (α k)) (k : κ) (i : ElemInfo) :
    LikeP Like (via e junk k i) (via e' junk k i) := via_like he he' h junk k i

/-- C81: so programs of derived types read the same values, and fail for the same inputs, whether types of fields panic or return errors. -/
theorem C81_program [DecidableEq κ] (raw raw' : (k : κ) → Raw (States τ × Bool) (τ k) (α k)) (e e' : (k : κ) → Ends (τ k) (α k)) (he : ∀ k, ends (raw k) = e k)
    (he' : ∀ k, ends (raw' k) = e' k) (h : ∀ k, LikeRaw (raw k) (raw' k)) (junk : Junk τ α) (k : κ) (dbg : Bool) (input : Input) :
    LikeFault Like (UnwindDe.read dbg (visitor raw junk) (via e junk.value k) input) (UnwindDe.read dbg (visitor raw' junk) (via e' junk.value k) input) :=
  read_like (visitor_like h junk) (fun i => via_like he he' h junk.value k i) dbg input

namespace ExF
open ExW (T Vl)

theorem raw_like (N N' : PDeser (States T) String) (hN : ∀ i, LikeP Like (N i) (N' i)) (k : Unit) : LikeRaw (raw N k) (raw N' k) := by
  have hv : ∀ i, LikeP Like (via ExW.end_ ExW.noJunk.value () i) (via ExW.end_ ExW.noJunk.value () i) := by
    refine fun i => ⟨rfl, fun s r r' hr => ?_⟩
    rcases r with v | x | _ <;> rcases r' with v' | x' | _ <;> first | cases hr | skip
    all_goals exact rfl
  refine C81_derived.1 _ _ ⟨⟨rfl, rfl, ⟨fun _ => rfl, fun _ => rfl⟩⟩, ⟨rfl, rfl, ?_⟩, ⟨rfl, rfl, ?_⟩, ⟨rfl, rfl, ?_⟩, trivial⟩
  · exact into_like (vec_like hv) _ _
  · exact into_like (opt_like (attempt_like hv)) _ _
  · exact into_like (opt_like hN) _ _

/-- The hypotheses of C81 hold for a struct whose field panics or returns an error, within a field that catches panics and ignores errors. -/
example (dbg : Bool) (input : Input) :
    LikeFault Like (UnwindDe.read dbg (visitor (raw ExW.touchy) ExW.noJunk) (via ExW.end_ ExW.noJunk.value ()) input)
      (UnwindDe.read dbg (visitor (raw picky) ExW.noJunk) (via ExW.end_ ExW.noJunk.value ()) input) :=
  C81_program (raw ExW.touchy) (raw picky) ExW.end_ ExW.end_ (raw_ends _) (raw_ends _) (raw_like _ _ picky_like) ExW.noJunk () dbg input

/-- And those of `C81_panic_as_error`, for the same struct: it reads what it reads if errors are returned in place of panics. -/
example (e : VErr) (d : DErr) (dbg : Bool) (input : Input) (v : List Vl) :
    UnwindDe.read dbg (visitor (raw ExW.touchy) ExW.noJunk) (via ExW.end_ ExW.noJunk.value ()) input = .ok (.ok v) ↔
    UnwindDe.read dbg (erring e d (visitor (raw ExW.touchy) ExW.noJunk)) (erringD e (via ExW.end_ ExW.noJunk.value ())) input = .ok (.ok v) := by
  have ht : ∀ i, LikeP Like (ExW.touchy (σ := States T) i) (ExW.touchy i) := fun i x => rfl
  have hr := raw_like ExW.touchy ExW.touchy ht
  exact (C81_panic_as_error _ (visitor_like hr _) _ (fun i => C81_via _ _ _ _ (raw_ends ExW.touchy) (raw_ends ExW.touchy) hr _ _ i) e d dbg input).2.1 v

/-- What is read, where one panics and the other returns an error. -/
example (N : PDeser (States T) String) (h : N = ExW.touchy ∨ N = picky) :
    UnwindDe.read false (visitor (raw N) ExW.noJunk) (via ExW.end_ ExW.noJunk.value ()) ExW.doc.input =
    .ok (.ok [.text "1", .kids [[.text "2", .kids [[.text "3", .kids [], .safe none, .note none]], .safe none, .note none]], .safe (some []), .note (some "x")]) := by
  rcases h with rfl | rfl <;> rfl

end ExF

/-- C81: that failures are treated alike is needed: a visitor that catches panics, but returns errors, reads other values if errors are returned in place of
panics. -/
theorem C81_alike_needed (e : VErr) : (∃ a, UnwindDe.read false ExD.V ExD.D ExD.doc.input = .ok (.ok a)) ∧
    ∃ x, UnwindDe.read false (erring e (.user "") ExD.V) (erringD e ExD.D) ExD.doc.input = .ok (.err x) := ⟨⟨_, rfl⟩, _, rfl⟩

/-- A type of the example, and an attribute parser that panics or returns an error. -/
example := C81_fields (α' := String) (ExW.touchy (σ := States ExW.T)) ExF.picky ExF.picky_like
  (fun s => if s = "" then .panic else .ok s) (fun s => if s = "" then .err (.user "empty") else .ok s)
  (fun s => by by_cases h : s = "" <;> simp [h, Like, value])

end SX.OpenUnwind
