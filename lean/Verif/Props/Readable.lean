import Verif.Proof.Readable
import Verif.Props.Typed
import Verif.Props.Derive
import Verif.Props.Clash

/-
C71 and C72 for derived types: what can be read at all, whatever the input and whatever the declarations.
-/
namespace SX
open Spec

namespace ExC

/-- `struct R { a: Option<String>, a2: Vec<String> }` where both fields are elements named `a`, and an enum whose variants are both named `v`. -/
def env : Env where
  strct i := ⟨⟨none, "r"⟩, [], if i = 0 then
      [⟨⟨none, "a"⟩, .element ⟨.opt, .text .string⟩, none⟩, ⟨⟨none, "a"⟩, .element ⟨.many, .text .string⟩, none⟩]
    else [⟨⟨none, "a"⟩, .element ⟨.one, .text .string⟩, none⟩, ⟨⟨none, "a"⟩, .element ⟨.one, .text .string⟩, none⟩]⟩
  enm _ := ⟨"E", ⟨none, "e"⟩, [], [⟨⟨none, "v"⟩, none, false⟩, ⟨⟨none, "v"⟩, some ⟨.one, .text .string⟩, false⟩]⟩

theorem env_typed : DefaultsTyped env where
  elems := by
    intro i f s d hf hk hd
    simp only [env] at hf
    split at hf <;> simp only [List.mem_cons, List.not_mem_nil, or_false] at hf <;> rcases hf with rfl | rfl <;> cases hd
  attrs := by
    intro i f o t d hf hk hd
    simp only [env] at hf
    split at hf <;> simp only [List.mem_cons, List.not_mem_nil, or_false] at hf <;> rcases hf with rfl | rfl <;> cases hd

theorem env_declared : NamesDeclared env where
  mappings := by
    intro ty x hx
    cases ty <;> simp [declaredNs, env] at hx
  elems := by
    intro i f s hf hk
    simp only [env] at hf
    split at hf <;> simp only [List.mem_cons, List.not_mem_nil, or_false] at hf <;> rcases hf with rfl | rfl <;> exact .inr (.inr rfl)
  attrs := by
    intro i f o t hf hk
    simp only [env] at hf
    split at hf <;> simp only [List.mem_cons, List.not_mem_nil, or_false] at hf <;> rcases hf with rfl | rfl <;> cases hk
  variants := by
    intro i w hw hs
    simp only [env, List.mem_cons, List.not_mem_nil, or_false] at hw
    rcases hw with rfl | rfl <;> exact .inr (.inr rfl)

theorem env_attrs : AttrsDistinct env := by
  intro i p q f g o t o' t' hf hg hk
  exfalso
  have hf := List.mem_of_getElem? hf
  simp only [env] at hf
  split at hf <;> simp only [List.mem_cons, List.not_mem_nil, or_false] at hf <;> rcases hf with rfl | rfl <;> cases hk

theorem env_noDefault : ∀ ty, asksDefault env ty = false := by
  intro ty
  cases ty with
  | text t => rfl
  | enm i => rfl
  | strct i =>
    by_cases hi : i = 0
    · subst hi; rfl
    · simp [asksDefault, env, hi]

/-- `<r><a>x</a><a>y</a></r>` -/
def doc : Doc := Ex.docOf [] (Ex.leaf (Ex.q "a") "x" (Ex.leaf (Ex.q "a") "y" .nil))

theorem doc_read : readTy true env (.strct 0) doc.input = .ok (.ok (.strct [.opt none, .vec [.text (.str "x"), .text (.str "y")]])) := rfl

end ExC

/-- C72: reading preserves every invariant of the visitors: if each call keeps the invariant of the visitor's kind, and what `deserialize` makes
of a visitor with its kind's invariant is good, then what is read is good, whatever the input. -/
theorem C72_invariant {κ σ α : Type} (I : κ → σ → Prop) (V : Visitor σ) (K : Keeps I V) (D : Deser σ α) (good : α → Prop)
    (hD : ∀ i, Action.Within I (fun r => ∀ x, r = .ok (.ok x) → good x) (D i)) (dbg : Bool) (input : Input) (a : α)
    (h : read dbg V D input = .ok (.ok a)) : good a :=
  Keeping.read_keeps dbg K hD h

/-- C72: what derived code reads.  For any declarations there is a choice of fields and variants, at most one of each name, such that for every
input, also what no document looks like: the value is of the type, and only chosen fields and variants have anything from the input; the
others have their default, or what their type makes of an absent field. -/
theorem C72_readable (env : Env) : ∃ field variant, OneOfEach env field variant ∧
    ∀ (dbg : Bool) (ty : Ty) (input : Input) (v : Val), readTy dbg env ty input = .ok (.ok v) → CanBeRead env field variant ty v :=
  ⟨Readability.HeardField env, Readability.HeardVariant env, Readability.chosen env,
    fun _ _ _ _ h => Readability.readTy_readable env C64_parsed h⟩

example : ∃ v, readTy true ExC.env (.strct 0) ExC.doc.input = .ok (.ok v) := ⟨_, ExC.doc_read⟩

theorem cardOk_of_read {c : Card} {v : Val} (h : CardRead c v) : CardOk c v := by
  cases c with
  | one => trivial
  | opt => obtain ⟨w, rfl⟩ := h; exact ⟨_, rfl⟩
  | many => obtain ⟨w, l, rfl⟩ := h; exact ⟨_, rfl⟩

theorem Spec.CanBeRead.typed {env : Env} (hd : DefaultsTyped env) {field variant : Nat → Nat → Prop} {ty : Ty} {v : Val}
    (h : CanBeRead env field variant ty v) : Typed env ty v := by
  induction h with
  | text h => exact .text h
  | @strct i vs len noText attrs cards elems flats ihe ihf =>
    have cardsOk : ∀ (p : Nat) (f : Field) (s : Slot) (v : Val), (env.strct i).fields[p]? = some f → vs[p]? = some v →
        f.kind = .element s → CardOk s.card v ∧ ∀ w ∈ valuesOf s.card v, Typed env s.ty w := by
      intro p f s v hf hv hk
      by_cases ha : IsAbsent f v
      · rcases ha with ha | ⟨-, ha⟩
        · exact hd.elems i f s v (List.mem_of_getElem? hf) hk ha
        · rw [hk] at ha
          obtain ⟨card, ty⟩ := s
          cases card with
          | one => exact ha.elim
          | opt => simp only at ha; subst ha; exact ⟨⟨_, rfl⟩, by simp [valuesOf]⟩
          | many => simp only at ha; subst ha; exact ⟨⟨_, rfl⟩, by simp [valuesOf]⟩
      · exact ⟨cardOk_of_read (cards p f s v hf hv hk ha).2, fun w hw => ihe p f s v w hf hv hk ha hw⟩
    refine .strct len ?_ ?_ (fun p f s v hf hv hk => (cardsOk p f s v hf hv hk).1)
      (fun p f s v w hf hv hk hw => (cardsOk p f s v hf hv hk).2 w hw) ihf
    · intro p f o t v hf hv hk
      by_cases ha : IsAbsent f v
      · rcases ha with ha | ⟨-, ha⟩
        · exact hd.attrs i f o t v (List.mem_of_getElem? hf) hk ha
        · rw [hk] at ha
          cases o with
          | false => exact ha.elim
          | true => simp only at ha; exact .inr ⟨rfl, .inl ha⟩
      · exact (attrs p f o t v hf hv hk ha).2
    · intro p f t v hf hv hk
      exact absurd hk (noText f (List.mem_of_getElem? hf) t)
  | unit hv hs hc => exact .unit hv hs
  | payload hv hs hc card items ih => exact .payload hv hs (cardOk_of_read card) ih

/-- C72: so it is of the type asked for.  This is C64 without conditions on the declarations, and for every input. -/
theorem C72_typed (env : Env) (hd : DefaultsTyped env) (dbg : Bool) (ty : Ty) (input : Input) (v : Val)
    (h : readTy dbg env ty input = .ok (.ok v)) : Typed env ty v := by
  obtain ⟨field, variant, -, hall⟩ := C72_readable env
  exact (hall dbg ty input v h).typed hd

example : Typed ExC.env (.strct 0) (.strct [.opt none, .vec [.text (.str "x"), .text (.str "y")]]) :=
  C72_typed ExC.env ExC.env_typed true (.strct 0) ExC.doc.input _ ExC.doc_read

/-- C72: and it can be written (see C64), whatever the input. -/
theorem C72_write (dbg dbg' : Bool) (sink : Sink) (hs : ∀ out e, sink out e = none) (env : Env) (hd : DefaultsTyped env)
    (henv : NamesDeclared env) (hdis : AttrsDistinct env) (ty : Ty) (name : EName) (hn : ElemNsOk (urls (declaredNs env ty)) name)
    (hc : NoClash env name) (input : Input) (v : Val) (h : readTy dbg env ty input = .ok (.ok v)) :
    ∃ s as g, serializeVal dbg' sink env name ty v = .ok (s, .ok ()) ∧ Represents env name ty v as g ∧
      resolveEvents s.out [] = some (.start name as :: (g.events ++ [.stop])) := by
  obtain ⟨s, r, as, g, h1, h2, h3, h4⟩ := C32_types_partial dbg' sink env henv hdis name ty hn hc v
    (C64_hasTy (C72_typed env hd dbg ty input v h))
  have := h4 hs
  subst this
  exact ⟨s, as, g, h1, h2, h3 rfl⟩

example : ∃ s as g, serializeVal true (fun _ _ => none) ExC.env ⟨"", "r"⟩ (.strct 0)
      (.strct [.opt none, .vec [.text (.str "x"), .text (.str "y")]]) = .ok (s, .ok ()) ∧
    Represents ExC.env ⟨"", "r"⟩ (.strct 0) (.strct [.opt none, .vec [.text (.str "x"), .text (.str "y")]]) as g ∧
    resolveEvents s.out [] = some (.start ⟨"", "r"⟩ as :: (g.events ++ [.stop])) :=
  C72_write true true _ (fun _ _ => rfl) ExC.env ExC.env_typed ExC.env_declared ExC.env_attrs (.strct 0) _ (.inr (.inr rfl)) (.inl ExC.env_noDefault) ExC.doc.input _ ExC.doc_read

/-- C71: a struct with two elements of one name that have to be there cannot be read from anything. -/
theorem C71_never (env : Env) (i p q : Nat) (f g : Field) (t t' : Ty) (hp : (env.strct i).fields[p]? = some f)
    (hq : (env.strct i).fields[q]? = some g) (hpq : p ≠ q) (hf : f.kind = .element ⟨.one, t⟩) (hg : g.kind = .element ⟨.one, t'⟩)
    (hfd : f.default = none) (hgd : g.default = none) (hn : f.name.expanded = g.name.expanded) (dbg : Bool) (input : Input) (v : Val) :
    readTy dbg env (.strct i) input ≠ .ok (.ok v) := by
  intro h
  obtain ⟨field, variant, hc, hall⟩ := C72_readable env
  cases hall dbg _ input v h with
  | @strct _ vs len noText attrs cards elems flats =>
    have key : ∀ (p : Nat) (f : Field) (t : Ty), (env.strct i).fields[p]? = some f → f.kind = .element ⟨.one, t⟩ → f.default = none → field i p := by
      intro p f t hp hf hfd
      have hlt : p < vs.length := by rw [len]; exact (List.getElem?_eq_some_iff.mp hp).1
      refine (cards p f _ vs[p] hp (List.getElem?_eq_getElem hlt) hf ?_).1
      rintro (ha | ⟨-, ha⟩)
      · rw [hfd] at ha; cases ha
      · rw [hf] at ha; exact ha
    exact hpq (hc.elems i p q f g _ _ hp hq hf hg hn (key p f t hp hf hfd) (key q g t' hq hg hgd))

example (dbg : Bool) (input : Input) (v : Val) : readTy dbg ExC.env (.strct 1) input ≠ .ok (.ok v) :=
  C71_never ExC.env 1 0 1 _ _ _ _ rfl rfl (by decide) rfl rfl rfl rfl rfl dbg input v

/-- C71: what two elements of one name that may be absent hold: at most one of them holds anything from the input. -/
theorem C71_one (env : Env) (i p q : Nat) (f g : Field) (s s' : Slot) (hp : (env.strct i).fields[p]? = some f)
    (hq : (env.strct i).fields[q]? = some g) (hpq : p ≠ q) (hf : f.kind = .element s) (hg : g.kind = .element s')
    (hn : f.name.expanded = g.name.expanded) :
    (∀ dbg input vs v, readTy dbg env (.strct i) input = .ok (.ok (.strct vs)) → vs[p]? = some v → IsAbsent f v) ∨
    (∀ dbg input vs v, readTy dbg env (.strct i) input = .ok (.ok (.strct vs)) → vs[q]? = some v → IsAbsent g v) := by
  obtain ⟨field, variant, hc, hall⟩ := C72_readable env
  by_cases hfp : field i p
  · right
    intro dbg input vs v h hv
    cases hall dbg _ input _ h with
    | @strct _ vs len noText attrs cards elems flats =>
      exact Classical.byContradiction fun ha => hpq (hc.elems i p q f g s s' hp hq hf hg hn hfp (cards q g s' v hq hv hg ha).1)
  · left
    intro dbg input vs v h hv
    cases hall dbg _ input _ h with
    | @strct _ vs len noText attrs cards elems flats =>
      exact Classical.byContradiction fun ha => hfp (cards p f s v hp hv hf ha).1

/-- `struct R { a: Option<String>, #[static_xml(rename = "a")] b: Vec<String> }` of `C72`. -/
example := C71_one ExC.env 0 0 1 _ _ _ _ rfl rfl (by decide) rfl rfl rfl

end SX
