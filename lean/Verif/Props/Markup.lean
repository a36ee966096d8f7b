import Verif.Proof.Markup
import Verif.Props.Local

/-
C100: texts do not change the markup.
-/
namespace SX
open Spec Spec.Open

/-- **C100**. Two implementations that make the same calls with other texts and values: the names, the prefixes, the declarations of namespaces, the order of everything, the panics and
the errors are the same. -/
theorem C100_calls (dbg : Bool) (sink sink' : Sink) (hk : SameSinks sink sink') (name : EName) (v v' : Open.Ser) (h : SerLike v v') :
    SameMarkup (serializeTo dbg sink name v.attrs v.children) (serializeTo dbg sink' name v'.attrs v'.children) :=
  Markup.serialize_same dbg hk name h.attrs h.children

/-- **C100**, for derived types: two values with the same variants, the same optional fields and the same numbers of items. -/
theorem C100_values (dbg : Bool) (sink sink' : Sink) (hk : SameSinks sink sink') (env : Env) (name : EName) (ty : Ty) (v v' : Val) (h : Typed env ty v) (h' : Typed env ty v')
    (hb : bare v = bare v') : SameMarkup (serializeVal dbg sink env name ty v) (serializeVal dbg sink' env name ty v') :=
  Markup.serialize_same dbg hk name (Markup.attributes_like h h' hb) (Markup.children_like env (sizeOf v + 1) v (Nat.lt_succ_self _) ty v' h h' hb _ _ Markup.conts_ret)

/-- **C100**, when both are written. -/
theorem C100_written (dbg : Bool) (sink sink' : Sink) (env : Env) (name : EName) (ty : Ty) (v v' : Val) (h : Typed env ty v) (h' : Typed env ty v') (hb : bare v = bare v')
    (s : WState) (hs : serializeVal dbg sink env name ty v = .ok (s, .ok ())) :
    (∃ s', serializeVal dbg accepting env name ty v' = .ok (s', .ok ())) ∧
    ∀ s', serializeVal dbg sink' env name ty v' = .ok (s', .ok ()) → s.out.map markup = s'.out.map markup := by
  obtain ⟨t, h3, h4⟩ := written_anywhere (v := ⟨writeAttributes env ty v, writeChildren env ty v .ret⟩) hs
  have hv := C100_values dbg accepting accepting (fun _ _ _ _ _ _ => rfl) env name ty v v' h h' hb
  rw [show serializeVal dbg accepting env name ty v = _ from h3] at hv
  revert hv
  generalize hx : serializeVal dbg accepting env name ty v' = x
  intro hv
  cases hv with
  | done out poison result =>
    rename_i t' r'
    rw [Markup.same_ok result] at hx
    refine ⟨⟨t', by rw [Markup.same_ok result]⟩, fun s' hs' => ?_⟩
    obtain ⟨u, k1, k2⟩ := written_anywhere (v := ⟨writeAttributes env ty v', writeChildren env ty v' .ret⟩) hs'
    rw [show serializeVal dbg accepting env name ty v' = _ from k1] at hx
    cases hx
    rw [← h4, ← k2, out]

/-- **C100**, fields of any types: derived structs make the same calls if their fields do. -/
theorem C100_struct (ns : List (String × String)) (fs fs' : List Open.SField) (h : Rowwise FieldLike fs fs') : SerLike (Open.structSer ns fs) (Open.structSer ns fs') :=
  Markup.struct_like ns h

/-- **C100**, the same for enums and for the fields `T`, `Option<T>` and `Vec<T>`, and for types that are written as text. -/
theorem C100_fields (name : EName) :
    (∀ (ns : List (String × String)) (n : DName) (w w' : EName → Prog [.writer false]), Like (w n.expanded) (w' n.expanded) →
      SerLike (Open.enumSer ns (.payload n w)) (Open.enumSer ns (.payload n w'))) ∧
    (∀ v v', SerLike v v' → Like (Open.fieldOne v name) (Open.fieldOne v' name) ∧ Like (Open.fieldOpt (some v) name) (Open.fieldOpt (some v') name)) ∧
    (∀ l l', Rowwise SerLike l l' → Like (Open.fieldVec l name) (Open.fieldVec l' name)) ∧
    ∀ s s', SerLike (Open.textSer (.ok s)) (Open.textSer (.ok s')) ∧ AttrLike (Open.attrOne (.ok s) name) (Open.attrOne (.ok s') name) ∧
      AttrLike (Open.attrOpt (some (.ok s)) name) (Open.attrOpt (some (.ok s')) name) :=
  ⟨fun ns _ _ _ h => ⟨Markup.namespaces_like ns, Markup.seq_like h (.ret rfl)⟩, fun _ _ h => ⟨Markup.one_like h name, Markup.seq_like (Markup.one_like h name) (.ret rfl)⟩,
    fun _ _ h => Markup.many_like h name, fun s s' => ⟨⟨.ret rfl, .text s s' fun _ => .ret rfl⟩, .attribute name s s' fun _ _ h => .ret h,
      Markup.andThen_like (.attribute name s s' fun _ _ h => .ret h) (.ret rfl)⟩⟩

/-! ### An example: two libraries -/

namespace ExL
open ExS
attribute [local semireducible] writeChildren writeField writeVec writeElemFields writeFlattens

theorem book_typed (b : Bool) : Typed env (.strct 1) (book b []) := by
  refine .strct rfl (fun p f o t v hf hv hk => ?_) (fun p f t v hf hv hk => ?_) (fun p f s v hf hv hk => ?_) (fun p f s v w hf hv hk hw => ?_) (fun p f e v hf hv hk => ?_) <;>
    rcases p with _ | _ | p <;> simp [env, bookFields] at hf <;> subst hf <;> simp at hv <;> subst hv <;> simp at hk
  · subst hk; exact trivial
  · subst hk; exact ⟨_, rfl⟩
  · subst hk; simp [valuesOf] at hw; subst hw; exact .text (.bool b)
  · subst hk; simp [valuesOf] at hw

/-- A library with one book and a last one. -/
def lib (id lang title : String) (b b' : Bool) : List Val :=
  [ExS.str id, .opt (some (ExS.str lang)), ExS.str title, .vec [book b []], .enm 1 (some (.vec [book b' []])), .opt none]

theorem lib_typed (id lang title : String) (b b' : Bool) : Typed env (.strct 0) (.strct (lib id lang title b b')) := by
  refine .strct rfl (fun p f o t v hf hv hk => ?_) (fun p f t v hf hv hk => ?_) (fun p f s v hf hv hk => ?_) (fun p f s v w hf hv hk hw => ?_) (fun p f e v hf hv hk => ?_) <;>
    rcases p with _ | _ | _ | _ | _ | _ | p <;> simp [env, libFields] at hf <;> subst hf <;> simp [lib] at hv <;> subst hv <;> simp at hk
  · obtain ⟨rfl, rfl⟩ := hk
    exact .inl ⟨rfl, _, rfl, .string id⟩
  · obtain ⟨rfl, rfl⟩ := hk
    exact .inr ⟨rfl, .inr ⟨_, rfl, .string lang⟩⟩
  · subst hk; exact trivial
  · subst hk; exact ⟨_, rfl⟩
  · subst hk; exact ⟨_, rfl⟩
  · subst hk; simp [valuesOf] at hw; subst hw; exact .text (.string title)
  · subst hk; simp [valuesOf] at hw; subst hw; exact book_typed b
  · subst hk; simp [valuesOf] at hw
  · subst hk
    exact .payload (i := 0) (j := 1) rfl rfl ⟨_, rfl⟩ fun x hx => by simp [valuesOf] at hx; subst hx; exact book_typed b'

theorem lib_bare (id lang title : String) (b b' : Bool) : bare (.strct (lib id lang title b b')) = bare (.strct (lib "" "" "" true true)) := by
  simp [lib, bare, bareAll, bareOpt, ExS.str, book]

/-- Whatever the texts are, the library is written with the markup of the one without texts. -/
example (id lang title : String) (b b' : Bool) : ∃ s s₀, serializeVal true accepting env libName (.strct 0) (.strct (lib id lang title b b')) = .ok (s, .ok ()) ∧
    serializeVal true accepting env libName (.strct 0) (.strct (lib "" "" "" true true)) = .ok (s₀, .ok ()) ∧ s.out.map markup = s₀.out.map markup ∧ s₀.out.length = 15 := by
  obtain ⟨s₀, h⟩ : ∃ s₀, serializeVal true accepting env libName (.strct 0) (.strct (lib "" "" "" true true)) = .ok (s₀, .ok ()) ∧ s₀.out.length = 15 := ⟨_, rfl, rfl⟩
  obtain ⟨⟨s, h1⟩, h2⟩ := C100_written true accepting accepting env libName _ _ _ (lib_typed "" "" "" true true) (lib_typed id lang title b b') (lib_bare id lang title b b').symm s₀ h.1
  exact ⟨s, s₀, h1, h.1, (h2 s h1).symm, h.2⟩

/-- Fields of types of any kind: two texts, in a struct that is written by hand. -/
example (s s' a a' : String) (sink : Sink) (hk : SameSinks sink sink) :=
  C100_calls true sink sink hk ⟨"", "r"⟩ _ _
    (C100_struct [("p", "urn:p")] [⟨⟨none, "x"⟩, .attribute (Open.attrOne (.ok a))⟩, ⟨⟨none, "y"⟩, .element (Open.fieldOne (Open.textSer (.ok s)))⟩]
      [⟨⟨none, "x"⟩, .attribute (Open.attrOne (.ok a'))⟩, ⟨⟨none, "y"⟩, .element (Open.fieldOne (Open.textSer (.ok s')))⟩]
      (.cons (.attribute _ ((C100_fields _).2.2.2 a a').2.1) (.cons (.element _ ((C100_fields _).2.1 _ _ ((C100_fields ⟨"", "y"⟩).2.2.2 s s').1).1) .nil)))

end ExL

end SX
