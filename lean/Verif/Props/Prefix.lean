import Verif.Proof.Prefix
import Verif.Props.DeriveFirst
import Verif.Props.Whole

/-
C68: reading is decided by a prefix of the input, and never earlier than it seems: an input cut short either fails with the error of
the parser, or exactly as the whole input does.
-/
namespace SX
open Spec Spec.Open SX.Gen Spec.Gen

/-- C68: of any events, with any implementation that passes on errors: either they leave everything open, and then an error of the
parser after them is what is reported, with the elements open there; or they settle the result, which is no success, whatever follows. -/
theorem C68_prefix {σ α : Type} (dbg : Bool) (V : Visitor σ) (D : Deser σ α) (P : PassesOn V) (PD : DeserPassesOn D) (pre : List (XEvent × Pos)) :
    (∀ m p fp, read dbg V D (cutAt pre m p fp) = .ok (.error (tooEarly pre m p))) ∨
    ∃ r, (∀ a, r ≠ .ok (.ok a)) ∧ ∀ more final finalPos, read dbg V D { items := pre ++ more, final, finalPos } = r := by
  have key := Prefix.read_cut dbg V P D PD pre
  have settled : ∀ m p fp, read dbg V D (cutAt pre m p fp) ≠ .ok (.error (tooEarly pre m p)) →
      ∃ r, (∀ a, r ≠ .ok (.ok a)) ∧ ∀ more final finalPos, read dbg V D { items := pre ++ more, final, finalPos } = r := by
    intro m p fp hne
    refine ⟨read dbg V D (cutAt pre m p fp), fun a => ?_, fun more final finalPos => ?_⟩
    · rcases key [] .eof p m p fp with h | h
      · exact absurd h hne
      · exact h.2 a
    · rcases key more final finalPos m p fp with h | h
      · exact absurd h hne
      · exact h.1.symm
  let p0 : Pos := ⟨0, 0⟩
  by_cases h1 : read dbg V D (cutAt pre "a" p0 p0) = .ok (.error (tooEarly pre "a" p0))
  · by_cases h2 : read dbg V D (cutAt pre "b" p0 p0) = .ok (.error (tooEarly pre "b" p0))
    · refine .inl fun m p fp => ?_
      rcases key [] (.err "a" p0) p0 m p fp with h | ⟨h3, -⟩
      · exact h
      rcases key [] (.err "b" p0) p0 m p fp with h | ⟨h4, -⟩
      · exact h
      rw [List.append_nil] at h3 h4
      have h5 : read dbg V D (cutAt pre "a" p0 p0) = read dbg V D (cutAt pre "b" p0 p0) := h3.symm.trans h4
      rw [h1, h2] at h5
      simp [tooEarly] at h5
    · exact .inr (settled _ _ _ h2)
  · exact .inr (settled _ _ _ h1)

/-- C68: what settles the result settles it for good: there is one point of the input before which every cut is reported as such, and
after which nothing that follows matters any more. -/
theorem C68_point {σ α : Type} (dbg : Bool) (V : Visitor σ) (D : Deser σ α) (P : PassesOn V) (PD : DeserPassesOn D) (i : Input) :
    ∃ n, (∀ k, k < n → ∀ m p fp, read dbg V D (cutAt (i.items.take k) m p fp) = .ok (.error (tooEarly (i.items.take k) m p))) ∧
      ∀ k, n ≤ k → k ≤ i.items.length → ∀ more final finalPos, read dbg V D { items := i.items.take k ++ more, final, finalPos } = read dbg V D i := by
  let Open (k : Nat) : Prop := ∀ m p fp, read dbg V D (cutAt (i.items.take k) m p fp) = .ok (.error (tooEarly (i.items.take k) m p))
  have dich := fun k => C68_prefix dbg V D P PD (i.items.take k)
  have hset : ∀ k, ¬ Open k → ∀ k', k ≤ k' → ∀ more final finalPos,
      read dbg V D { items := i.items.take k' ++ more, final, finalPos } = read dbg V D i := by
    intro k hk k' hle more final finalPos
    rcases dich k with h | ⟨r, -, hr⟩
    · exact absurd h hk
    · have h1 : i.items.take k' = i.items.take k ++ (i.items.take k').drop k := by
        have h := (List.take_append_drop k (i.items.take k')).symm
        rw [List.take_take, Nat.min_eq_left hle] at h
        exact h
      rw [h1, List.append_assoc, hr]
      have h2 := hr (i.items.drop k) i.final i.finalPos
      rw [List.take_append_drop] at h2
      exact h2.symm
  by_cases hall : ∀ k, k ≤ i.items.length → Open k
  · exact ⟨i.items.length + 1, fun k hk => hall k (Nat.le_of_lt_succ hk), fun k h1 h2 => absurd (Nat.lt_of_lt_of_le h1 h2) (Nat.lt_irrefl _)⟩
  · have hex : ∃ k, ¬ Open k := by
      refine Classical.byContradiction fun hn => hall fun k _ => Classical.byContradiction fun hk => hn ⟨k, hk⟩
    have least : ∀ k, ¬ Open k → ∃ n, ¬ Open n ∧ ∀ j, j < n → Open j := by
      intro k
      induction k using Nat.strongRecOn with
      | ind k ih =>
        intro hk
        by_cases h : ∃ j, j < k ∧ ¬ Open j
        · obtain ⟨j, hj, hj'⟩ := h
          exact ih j hj hj'
        · exact ⟨k, hk, fun j hj => Classical.byContradiction fun hn => h ⟨j, hj, hn⟩⟩
    obtain ⟨k, hk⟩ := hex
    obtain ⟨n, hn, hlt⟩ := least k hk
    exact ⟨n, hlt, fun k h1 _ => hset n hn k h1⟩

/-- C68: an input that can be read, cut short anywhere: what is reported is the error of the parser. -/
theorem C68_readable {σ α : Type} (dbg : Bool) (V : Visitor σ) (D : Deser σ α) (P : PassesOn V) (PD : DeserPassesOn D) (i : Input) (a : α)
    (h : read dbg V D i = .ok (.ok a)) (k : Nat) (m : XmlErr) (p fp : Pos) :
    read dbg V D (cutAt (i.items.take k) m p fp) = .ok (.error (tooEarly (i.items.take k) m p)) := by
  rcases C68_prefix dbg V D P PD (i.items.take k) with h1 | ⟨r, h1, h2⟩
  · exact h1 m p fp
  · have := h2 (i.items.drop k) i.final i.finalPos
    rw [List.take_append_drop] at this
    exact absurd (this.symm.trans h) (h1 a)

/-! ### Derived types -/

namespace Prefix

theorem passes_map {σ ρ ρ' : Type} {gives : ρ → VErr → Prop} {gives' : ρ' → VErr → Prop} (f : ρ → ρ') (hf : ∀ r e, gives r e → gives' (f r) e)
    {act : Action σ ρ} (h : Action.PassesOn gives act) : Action.PassesOn gives' (act.map f) := by
  cases act with
  | done r => trivial
  | readString k => exact fun e => hf _ _ (h e)
  | readTo sub k => exact fun sub e => hf _ _ (h sub e)

theorem deserTy_passes (env : Env) (ty : Ty) : Action.PassesOn (fun r e => r = .ok (.error e)) (deserTy env ty) := by
  cases ty with
  | text t => exact fun e => rfl
  | strct i => exact fun sub e => rfl
  | enm i => exact fun sub e => rfl

theorem slotInit_passes (env : Env) (s : Slot) : Action.PassesOn (fun r e => r = .ok (.error e)) (slotInit env s) :=
  passes_map _ (fun r e h => by rw [h]; rfl) (deserTy_passes env s.ty)

theorem slotUpdate_passes (env : Env) (s : Slot) (cell : Option Val) (n : EName) :
    Action.PassesOn (fun r e => r = .ok (.error e)) (slotUpdate env s cell n) := by
  unfold slotUpdate
  split
  · split <;> trivial
  · split <;> trivial
  · split
    · exact passes_map _ (fun r e h => by rw [h]; rfl) (deserTy_passes env s.ty)
    · trivial

theorem enumElement_passes (env : Env) (e : Nat) (st : FState) (n : EName) (act : Action DState (Except Fault (FState × Except VErr Unit)))
    (h : enumElement env e st n = .ok (some act)) : Action.PassesOn (fun r e => ∃ v', r = .ok (v', .error e)) act := by
  unfold enumElement at h
  simp only at h
  repeat' split at h
  all_goals first
    | cases h; done
    | cases h; exact trivial
    | cases h; exact passes_map _ (fun r e h => ⟨st, by rw [h]⟩) (slotUpdate_passes env _ _ _)
    | cases h; exact passes_map _ (fun r e h => ⟨st, by rw [h]⟩) (slotInit_passes env _)

theorem delegate_passes (env : Env) (i : Nat) (fs : List FState) (n : EName) (l : List (Nat × Nat)) :
    Action.PassesOn (fun r e => ∃ v', r = .ok (v', .error e)) (delegate env i fs n l) := by
  induction l with
  | nil => trivial
  | cons x l ih =>
    obtain ⟨p, e⟩ := x
    rw [delegate]
    split
    · trivial
    · rename_i st hst
      split
      · trivial
      · exact ih
      · rename_i act hact
        exact passes_map _ (fun r e ⟨v', h⟩ => ⟨.strct i (fs.set p v'), by rw [h]; rfl⟩) (enumElement_passes env e _ n _ hact)

/-- Derived visitors pass on errors. -/
theorem derived_passes (env : Env) : PassesOn (derivedVisitor env) := by
  intro v info
  cases v with
  | strct i fs =>
    change Action.PassesOn _ (structElement env i fs info.name.expanded)
    unfold structElement
    simp only
    split
    · trivial
    · exact delegate_passes env i fs _ _
    · split
      · split
        · exact passes_map _ (fun r e h => ⟨.strct i fs, by rw [h]⟩) (slotUpdate_passes env _ _ _)
        · exact passes_map _ (fun r e h => ⟨.strct i fs, by rw [h]⟩) (slotInit_passes env _)
      · trivial
  | enm i st =>
    simp only [derivedVisitor]
    split
    · trivial
    · trivial
    · rename_i act hact
      exact passes_map _ (fun r e ⟨v', h⟩ => ⟨.enm i v', by rw [h]; rfl⟩) (enumElement_passes env i st _ _ hact)

end Prefix

/-- C68 for derived types. -/
theorem C68_derived (dbg : Bool) (env : Env) (ty : Ty) (i : Input) :
    ∃ n, (∀ k, k < n → ∀ m p fp, readTy dbg env ty (cutAt (i.items.take k) m p fp) = .ok (.error (tooEarly (i.items.take k) m p))) ∧
      ∀ k, n ≤ k → k ≤ i.items.length → ∀ more final finalPos, readTy dbg env ty { items := i.items.take k ++ more, final, finalPos } = readTy dbg env ty i :=
  C68_point dbg _ _ (Prefix.derived_passes env) (fun _ => Prefix.deserTy_passes env ty) i

/-- C68: a document of a derived type, cut short at any event: reported is the error of the parser, or the first defect of the document (C44);
if the document has none, always the former. -/
theorem C68_document (dbg : Bool) (env : Env) (hok : EnvOk env) (ty : Ty) (d : Doc) (k : Nat) (m : XmlErr) (p fp : Pos) :
    readTy dbg env ty (cutAt (d.input.items.take k) m p fp) = .ok (.error (tooEarly (d.input.items.take k) m p)) ∨
    ∃ df, bodyErr env (d.root.body env) ty = some df ∧ readTy dbg env ty (cutAt (d.input.items.take k) m p fp) = .ok (.error (reported d.root df)) := by
  rcases C68_prefix dbg _ _ (Prefix.derived_passes env) (fun _ => Prefix.deserTy_passes env ty) (d.input.items.take k) with h | ⟨r, h1, h2⟩
  · exact .inl (h m p fp)
  · refine .inr ?_
    have h3 := h2 (d.input.items.drop k) d.input.final d.input.finalPos
    rw [List.take_append_drop] at h3
    have h4 := h2 [] (.err m p) fp
    rw [List.append_nil] at h4
    have h5 : readTy dbg env ty (cutAt (d.input.items.take k) m p fp) = readTy dbg env ty d.input := h4.trans h3.symm
    cases hb : bodyErr env (d.root.body env) ty with
    | none =>
      cases hv : bodyValue env (d.root.body env) ty with
      | none => exact absurd hv ((C44_complete env hok ty d).mp hb)
      | some v => exact absurd (h3.symm.trans ((C18_value dbg env hok ty d v).mpr hv)) (h1 v)
    | some df => exact ⟨df, rfl, h5.trans ((C44_first dbg env hok ty d _).mpr ⟨df, hb, rfl⟩)⟩

/-- C68 for the emitted code of a crate. -/
theorem C68_crate (c : Crate) (code : Emitted) (types : Types) (env : Env) (ha : Accepted c code) (hu : Unskipped c) (hd : DeclaresTypes c env)
    (ht : c.Tied code types) (dbg : Bool) (ty : Ty) (i : Input) :
    ∃ n, (∀ k, k < n → ∀ m p fp, c.read code types dbg ty (cutAt (i.items.take k) m p fp) = .ok (.error (tooEarly (i.items.take k) m p))) ∧
      ∀ k, n ≤ k → k ≤ i.items.length → ∀ more final finalPos,
        someOk (c.read code types dbg ty { items := i.items.take k ++ more, final, finalPos }) = someOk (c.read code types dbg ty i) := by
  obtain ⟨n, h1, h2⟩ := C68_derived dbg env ty i
  refine ⟨n, fun k hk m p fp => ?_, fun k hk hk' more final finalPos => ?_⟩
  · have h := C65_read c code types env ha hu hd ht dbg ty (cutAt (i.items.take k) m p fp)
    rw [h1 k hk m p fp] at h
    cases hr : c.read code types dbg ty (cutAt (i.items.take k) m p fp) with
    | error f => rw [hr] at h; simp [someOk] at h
    | ok x => rw [hr] at h; simp only [someOk, Option.some.injEq] at h; rw [h]
  · rw [C65_read c code types env ha hu hd ht, C65_read c code types env ha hu hd ht, h2 k hk hk']

/-! ### Examples -/

theorem Ex.V_passes : PassesOn Ex.V := by
  intro v i
  simp only [Ex.V]
  split
  · trivial
  · split
    · trivial
    · exact fun sub e => ⟨v, rfl⟩

theorem Ex.D_passes : DeserPassesOn Ex.D := fun _ _ _ => rfl

/-- The document of C10, cut within the element that is skipped: `r` and `skip` are open. -/
example : PassesOn Ex.V ∧ DeserPassesOn Ex.D ∧ (∃ a, read true Ex.V Ex.D Ex.doc.input = .ok (.ok a)) ∧
    tooEarly (Ex.doc.input.items.take 11) "eof" (Ex.p 99) =
      { kind := .xml "eof", stack := [⟨Ex.q "r", Ex.p 2⟩, ⟨Ex.q "skip", Ex.p 9⟩], pos := Ex.p 99 } ∧
    read true Ex.V Ex.D (cutAt (Ex.doc.input.items.take 11) "eof" (Ex.p 99) (Ex.p 99)) = .ok (.error (tooEarly (Ex.doc.input.items.take 11) "eof" (Ex.p 99))) :=
  ⟨Ex.V_passes, Ex.D_passes, ⟨_, rfl⟩, rfl, rfl⟩

/-- The document with two defects of C44: cut at the third event everything is open; at the ninth the first defect is found. -/
example : EnvOk Ex.env ∧
    readTy true Ex.env (.strct 0) (cutAt ((Ex.defDoc Ex.twoDefects).input.items.take 3) "eof" (Ex.p 9) (Ex.p 9)) =
      .ok (.error (tooEarly ((Ex.defDoc Ex.twoDefects).input.items.take 3) "eof" (Ex.p 9))) ∧
    ∃ k E, k < (Ex.defDoc Ex.twoDefects).input.items.length ∧ readTy true Ex.env (.strct 0) (Ex.defDoc Ex.twoDefects).input = .ok (.error E) ∧
      readTy true Ex.env (.strct 0) (cutAt ((Ex.defDoc Ex.twoDefects).input.items.take k) "eof" (Ex.p 9) (Ex.p 9)) = .ok (.error E) :=
  ⟨Ex.env_ok, rfl, (Ex.defDoc Ex.twoDefects).input.items.length - 1, _, by decide, rfl, rfl⟩

/-- That errors are passed on is needed: an implementation that answers an error with a value of its own makes another error of a cut. -/
example : ∃ (V : Visitor Unit) (D : Deser Unit Unit) (pre : List (XEvent × Pos)), PassesOn V ∧
    (¬ ∀ m p fp, read false V D (cutAt pre m p fp) = .ok (.error (tooEarly pre m p))) ∧
    ¬ ∃ r, (∀ a, r ≠ .ok (.ok a)) ∧ ∀ more final finalPos, read false V D { items := pre ++ more, final, finalPos } = r := by
  refine ⟨⟨fun v _ _ => .ok (v, .ok ()), fun v _ _ => .ok (v, .ok ()), fun v _ => .done (.ok (v, .ok ()))⟩,
    fun _ => .readTo () fun _ r => match r with | .ok _ => .ok (.ok ()) | .error _ => .ok (.error (.wrap (.user "no"))),
    [(.startDocument, Ex.p 0), (.startElement (Ex.q "r") [] [], Ex.p 1)], fun _ _ => trivial, fun h => ?_, ?_⟩
  · have := h "m" (Ex.p 2) (Ex.p 2)
    rw [show read _ _ _ _ = Except.ok (Except.error { kind := .deserializer (.user "no"), stack := [⟨Ex.q "r", Ex.p 1⟩], pos := Ex.p 2 }) from rfl] at this
    simp [tooEarly] at this
  · rintro ⟨r, h1, h2⟩
    have := h2 [(.endElement (Ex.q "r"), Ex.p 2)] .eof (Ex.p 3)
    exact h1 () this.symm

/-- The hypotheses of the other theorems, for the same documents and for the crate of C65. -/
example := C68_readable true Ex.V Ex.D Ex.V_passes Ex.D_passes Ex.doc.input _ rfl
example := C68_document true Ex.env Ex.env_ok (.strct 0) (Ex.defDoc Ex.twoDefects)
example (types : Types) (ht : ExCrate.crate.Tied ExCrate.code types) :=
  C68_crate ExCrate.crate ExCrate.code types ExCrate.env ExCrate.accepted ExCrate.unskipped ExCrate.declares ht true (.strct 0) ExCrate.doc.input

end SX
