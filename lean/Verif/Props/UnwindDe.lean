import Verif.Proof.UnwindDePlain
import Verif.Props.Reader
import Verif.Props.Readable

namespace SX.UnwindDe
open SX.Open SX.Spec.UnwindDe

namespace ExD
open SX.Ex (q p)

/-- Records what it is given.  Text `boom` and elements named `boom` panic, after their content was read; elements named `safe` are read within `catch_unwind`. -/
def V : PVisitor (List String) where
  onAttr v n s := (v ++ ["@" ++ n.loc ++ "=" ++ s], .ok ())
  onChars v s _ := if s = "boom" then (v ++ ["!"], .panic) else (v ++ [s], .ok ())
  onElem v i := .readTo [] fun sub r =>
    match r with
    | .ok _ => if i.name.loc = "boom" then (v, .panic) else (v ++ ["<" ++ i.name.loc ++ ">"] ++ sub, .ok ())
    | .err e => (v, .err e)
    | .panic => if i.name.loc = "safe" then (v ++ ["caught"] ++ sub, .ok ()) else (v ++ sub, .panic)

def D : PDeser (List String) (List String) := fun _ => .readTo [] fun sub r =>
  match r with
  | .ok _ => .ok sub
  | .err e => .err e
  | .panic => .panic

/-- `<r>a<safe>b<x>c<y>boom</y>d<z/></x>e</safe>f<g/></r>` -/
def doc : Spec.Doc :=
  { startPos := p 0, prolog := [],
    root := Spec.Elem.mk (q "r") [] [] (p 1)
      (.chars "a" false (p 2) (.elem (q "safe") [] [] (p 3)
        (.chars "b" false (p 4) (.elem (q "x") [] [] (p 5)
          (.chars "c" false (p 6) (.elem (q "y") [] [] (p 7) (.chars "boom" false (p 8) .nil) (p 9)
            (.chars "d" false (p 10) (.elem (q "z") [] [] (p 11) .nil (p 12) .nil)))) (p 13)
          (.chars "e" false (p 14) .nil))) (p 15)
        (.chars "f" false (p 16) (.elem (q "g") [] [] (p 17) .nil (p 18) .nil)))) (p 19),
    epilog := [], eofPos := p 20, epilogOk := by simp }

/-- `<r>a<x>c<y>boom</y></x></r>` -/
def doc2 : Spec.Doc :=
  { startPos := p 0, prolog := [],
    root := Spec.Elem.mk (q "r") [] [] (p 1)
      (.chars "a" false (p 2) (.elem (q "x") [] [] (p 5)
          (.chars "c" false (p 6) (.elem (q "y") [] [] (p 7) (.chars "boom" false (p 8) .nil) (p 9) .nil)) (p 13) .nil)) (p 19),
    epilog := [], eofPos := p 20, epilogOk := by simp }

/-- The same without `catch_unwind`. -/
def V1 : PVisitor (List String) where
  onAttr := V.onAttr
  onChars := V.onChars
  onElem v i := .readTo [] fun sub r =>
    match r with
    | .ok _ => if i.name.loc = "boom" then (v, .panic) else (v ++ ["<" ++ i.name.loc ++ ">"] ++ sub, .ok ())
    | .err e => (v, .err e)
    | .panic => (v ++ sub, .panic)

/-- `<r><safe><boom/></safe>f</r>` -/
def doc3 : Spec.Doc :=
  { startPos := p 0, prolog := [],
    root := Spec.Elem.mk (q "r") [] [] (p 1)
      (.elem (q "safe") [] [] (p 3) (.elem (q "boom") [] [] (p 4) .nil (p 5) .nil) (p 6) (.chars "f" false (p 7) .nil)) (p 8),
    epilog := [], eofPos := p 9, epilogOk := by simp }

/-- Counts by two; panics at text, and catches that in the next but one reader. -/
def W : PVisitor Nat where
  onAttr v _ _ := (v + 2, .ok ())
  onChars v _ _ := (v + 4, .panic)
  onElem v i := .readTo 2 fun sub r =>
    match r with
    | .ok _ => (v + sub, .ok ())
    | .err e => (v, .err e)
    | .panic => if i.depth = 2 then (v + sub, .ok ()) else (v + sub, .panic)

def WD : PDeser Nat Nat := fun _ => .readTo 0 fun sub r =>
  match r with
  | .ok _ => .ok (sub + 2)
  | .err e => .err e
  | .panic => .panic

/-- `<r><c><g>t</g></c></r>` -/
def doc4 : Spec.Doc :=
  { startPos := p 0, prolog := [],
    root := Spec.Elem.mk (q "r") [] [] (p 1)
      (.elem (q "c") [] [] (p 3) (.elem (q "g") [] [] (p 4) (.chars "t" false (p 5) .nil) (p 6) .nil) (p 7) .nil) (p 8),
    epilog := [], eofPos := p 9, epilogOk := by simp }

theorem V1_noSwallow : NoSwallow V1 := fun v i => ⟨fun sub e h => by simp at h, fun sub h => by simp at h⟩
theorem V1_noCatch : NoCatch V1 := fun v i sub => rfl
theorem D_noSwallow : DeserNoSwallow D := fun i => ⟨fun sub e a h => by simp at h, fun sub a h => by simp at h⟩
theorem D_noCatch : DeserNoCatch D := fun i sub => rfl

end ExD

/-! ## C74 -/

theorem faultOf_injective {ε α : Type} {x y : Ret ε α} (h : faultOf x = faultOf y) : x = y := by
  rcases x with _ | _ | _ <;> rcases y with _ | _ | _ <;> simp_all [faultOf]

/-- C74: with visitors that panic and catch panics, reading any sequence of events a parser can report ends with `Ok`, `Err` or a panic of the visitors: there is
no endless loop, no access out of range and, if visitors swallow neither errors nor panics, no failing assertion. -/
theorem C74_total {σ α : Type} (dbg : Bool) (V : PVisitor σ) (D : PDeser σ α) (H : dbg = false ∨ NoSwallow V ∧ DeserNoSwallow D) (i : Input)
    (hi : Spec.Conforming i) : ∃ r, read dbg V D i = .ok r := by
  have H' : dbg = false ∨ Spec.NoSwallow (flag V) ∧ Spec.DeserNoSwallow (flagD (.ok (.error cover)) D) :=
    H.imp id fun h => ⟨flag_noSwallow h.1, flagD_noSwallow (fun a h => by cases h) h.2⟩
  obtain ⟨r, hr⟩ := C12_read_total dbg (flag V) (flagD (.ok (.error cover)) D) H' (flag_total V) (flagD_total D _) i hi
  have := read_flag_error dbg V D i
  revert this
  rcases read dbg V D i with f | y
  · intro this
    rw [show _ = Except.error f from this] at hr
    cases hr
  · exact fun _ => ⟨y, rfl⟩

theorem in_sync {σ α : Type} (dbg : Bool) (V : PVisitor σ) (D : PDeser σ α) (H : dbg = false ∨ NoSwallow V ∧ DeserNoSwallow D) (d : Spec.Doc) :
    read dbg V D d.input = .ok (Spec.UnwindDe.readDoc V D d) := by
  obtain ⟨r, hr⟩ := C74_total dbg V D H d.input (C12_documents_conform d)
  have h1 := read_flag_fault dbg V D d.input
  rw [hr, read_spec dbg (flag V) (flagD (.error .panic) D)
    (H.imp id fun h => ⟨flag_noSwallow h.1, flagD_noSwallow (fun a h => by cases h) h.2⟩) d, readDoc_flag] at h1
  rw [hr]
  exact congrArg _ (faultOf_injective h1).symm

/-- C74, release build: for every visitor, implementation and document whatsoever, also if they panic and catch panics of child reads, reading is a traversal of
the element tree: after a caught panic it goes on with what follows the child in the document, however deep in the child the panic happened. -/
theorem C74_in_sync {σ α : Type} (V : PVisitor σ) (D : PDeser σ α) (d : Spec.Doc) : read false V D d.input = .ok (Spec.UnwindDe.readDoc V D d) :=
  in_sync false V D (.inl rfl) d

/-- C74, debug build: the same if errors and panics of child reads are not swallowed. -/
theorem C74_in_sync_debug {σ α : Type} (V : PVisitor σ) (D : PDeser σ α) (hV : NoSwallow V) (hD : DeserNoSwallow D) (d : Spec.Doc) :
    read true V D d.input = .ok (Spec.UnwindDe.readDoc V D d) := in_sync true V D (.inr ⟨hV, hD⟩) d

/-- A panic three levels down, caught, and one that is not caught. -/
example : read false ExD.V ExD.D ExD.doc.input = .ok (.ok ["a", "caught", "b", "c", "!", "f", "<g>"]) ∧
    NoSwallow ExD.V1 ∧ DeserNoSwallow ExD.D ∧ read true ExD.V1 ExD.D ExD.doc.input = .ok .panic :=
  ⟨rfl, ExD.V1_noSwallow, ExD.D_noSwallow, rfl⟩

/-- C74: the restriction on debug builds is needed: when a panic that comes after the end tag of a child's child
is caught, and reading goes on, an assertion fails. -/
theorem C74_debug_catch_counterexample : read true ExD.V ExD.D ExD.doc3.input = .error .panic ∧
    read false ExD.V ExD.D ExD.doc3.input = .ok (.ok ["caught", "f"]) := ⟨rfl, rfl⟩

/-- C74: whatever the events, and whatever panics are caught, `Ok` is returned only if the parser reported the end of the document. -/
theorem C74_ok_final {σ α : Type} (dbg : Bool) (V : PVisitor σ) (D : PDeser σ α) (i : Input) (a : α) (h : read dbg V D i = .ok (.ok a)) :
    i.final = .eof := by
  have := read_flag_error dbg V D i
  rw [h] at this
  exact C11_truncated_never_ok dbg _ _ i a this

example : ∃ a, read false ExD.V ExD.D ExD.doc.input = .ok (.ok a) := ⟨_, rfl⟩

/-- C74: if the parser reports an error, catching panics does not hide it: reading ends with `Err` or a panic. -/
theorem C74_parser_error {σ α : Type} (dbg : Bool) (V : PVisitor σ) (D : PDeser σ α) (H : dbg = false ∨ NoSwallow V ∧ DeserNoSwallow D) (i : Input)
    (hi : Spec.Conforming i) (m : String) (p : Pos) (hf : i.final = .err m p) : (∃ e, read dbg V D i = .ok (.err e)) ∨ read dbg V D i = .ok .panic := by
  obtain ⟨r, hr⟩ := C74_total dbg V D H i hi
  rcases r with a | e | _
  · have := C74_ok_final dbg V D i a hr
    rw [hf] at this
    cases this
  · exact .inl ⟨e, hr⟩
  · exact .inr hr

/-- A document cut off after a panic that was caught. -/
example : let i : Input := { items := (ExD.doc.input).items.take 8, final := .err "cut" (Ex.p 9), finalPos := Ex.p 9 }
    Spec.Conforming i ∧ ∃ e, read false ExD.V ExD.D i = .ok (.err e) ∧ e.kind = .xml "cut" :=
  ⟨⟨_, _, rfl⟩, _, rfl, rfl⟩

theorem flag_keeps {κ σ : Type} {I : κ → σ → Prop} {V : PVisitor σ} (K : Spec.UnwindDe.Keeps I V) :
    Spec.Keeps (fun kind v => I kind v.1) (flag V) := by
  have he : ∀ kind (y : σ × Ret VErr Unit), I kind y.1 → ∀ v' r, enc y = .ok (v', r) → I kind v'.1 := by
    rintro kind ⟨v, _ | e | _⟩ hv v' r h <;> (simp only [enc, Except.ok.injEq, Prod.mk.injEq] at h; obtain ⟨rfl, _⟩ := h; exact hv)
  constructor
  · intro kind v n s v' r hv h
    exact he kind _ (K.attr kind v.1 n s hv) v' r h
  · intro kind v s p v' r hv h
    have hk := K.chars kind v.1 s p hv
    rw [flag_onChars] at h
    revert h hk
    rcases V.onChars v.1 s p with ⟨v1, _ | e | _⟩ <;> intro h hk <;>
      (simp only [Except.ok.injEq, Prod.mk.injEq] at h; obtain ⟨rfl, _⟩ := h; exact hk)
  · intro kind v i hv
    have hk := K.elem kind v.1 i hv
    rw [flag_onElem]
    revert hk
    cases V.onElem v.1 i with
    | done y => exact fun hk v' x h => he kind y hk v' x h
    | readString k => exact fun hk r v' x h => he kind _ (hk r) v' x h
    | readTo sub k =>
      rintro ⟨kind', hs, hk⟩
      exact ⟨kind', hs, fun sub r hs v' x h => he kind _ (hk sub.1 _ hs) v' x h⟩

/-- C74: reading preserves every invariant of the visitors that their methods preserve, also when they panic and the panic is caught: what is read is good if it is
made of visitors with their invariant, whatever the input. -/
theorem C74_invariant {κ σ α : Type} (I : κ → σ → Prop) (V : PVisitor σ) (K : Spec.UnwindDe.Keeps I V) (D : PDeser σ α) (good : α → Prop)
    (hD : ∀ i, Spec.UnwindDe.Within I (fun r => ∀ a, r = .ok a → good a) (D i)) (dbg : Bool) (input : Input) (a : α)
    (h : read dbg V D input = .ok (.ok a)) : good a := by
  have h1 := read_flag_error dbg V D input
  rw [h] at h1
  refine C72_invariant (fun kind v => I kind v.1) (flag V) (flag_keeps K) (flagD (.ok (.error cover)) D) good ?_ dbg input a h1
  have hd : ∀ (y : Ret VErr α), (∀ a, y = .ok a → good a) → ∀ x, encD (.ok (.error cover)) y = .ok (.ok x) → good x := by
    rintro (b | e | _) hy x hx
    · simp only [encD, Except.ok.injEq] at hx; subst hx; exact hy _ rfl
    · simp [encD] at hx
    · simp [encD] at hx
  intro i
  have hk := hD i
  simp only [flagD]
  revert hk
  cases D i with
  | done y => exact fun hk => hd y hk
  | readString k => exact fun hk r => hd _ (hk r)
  | readTo sub k =>
    rintro ⟨kind, hs, hk⟩
    exact ⟨kind, hs, fun sub r hs => hd _ (hk sub.1 _ hs)⟩

/-- Numbers stay even. -/
example : Spec.UnwindDe.Keeps (fun (_ : Unit) (v : Nat) => v % 2 = 0) ExD.W ∧
    (∀ i, Spec.UnwindDe.Within (fun (_ : Unit) (v : Nat) => v % 2 = 0) (fun r => ∀ a, r = .ok a → a % 2 = 0) (ExD.WD i)) ∧
    read false ExD.W ExD.WD ExD.doc4.input = .ok (.ok 10) := by
  refine ⟨⟨fun _ v _ _ h => ?_, fun _ v _ _ h => ?_, fun _ v i h => ⟨(), rfl, fun sub r hs => ?_⟩⟩, fun i => ⟨(), rfl, fun sub r hs a h => ?_⟩, rfl⟩
  · show (v + 2) % 2 = 0; omega
  · show (v + 4) % 2 = 0; omega
  · rcases r with _ | e | _
    · show (v + sub) % 2 = 0; omega
    · exact h
    · simp only
      split
      · show (v + sub) % 2 = 0; omega
      · show (v + sub) % 2 = 0; omega
  · rcases r with _ | e | _ <;> simp only [Ret.ok.injEq, reduceCtorEq] at h
    subst h
    simp only at hs
    omega

/-- C74: for visitors that do not catch panics this is reading as in `Model/Reader.lean`, where a panic is a fault. -/
theorem C74_uncaught {σ α : Type} (dbg : Bool) (V : PVisitor σ) (D : PDeser σ α) (hV : NoCatch V) (hD : DeserNoCatch D) (i : Input) :
    SX.read dbg (plain V) (plainD D) i = (read dbg V D i).bind faultOf := read_plain dbg V D hV hD i

example : NoCatch ExD.V1 ∧ DeserNoCatch ExD.D ∧ SX.read true (plain ExD.V1) (plainD ExD.D) ExD.doc2.input = .error .panic ∧
    read true ExD.V1 ExD.D ExD.doc2.input = .ok .panic := ⟨ExD.V1_noCatch, ExD.D_noCatch, rfl, rfl⟩

end SX.UnwindDe
