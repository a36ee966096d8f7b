import Verif.Proof.Local
import Verif.Props.OpenSer

/-
C99: a change of a value changes what is written only where the change is.
-/
namespace SX
open Open Spec Spec.Open

/-- **C99**. Two programs that write the same content except at one place, at any depth: whatever is written by the one is, around that place, what is written by the other, to the
event: names, prefixes, declarations of namespaces.  At the place, both write what they would write on their own, with the same mappings (`m`) around it.  Whether the other one
succeeds depends on that place only. -/
theorem C99_place (dbg : Bool) (q q' p p' : Prog [.writer false]) (h : Edit q q' p p') (n : Namespaces) (out : List WEvent) (hw : Writes dbg n q out) :
    ∃ m A B C, out = A ++ B ++ C ∧ Writes dbg m p B ∧ ∀ out', Writes dbg n q' out' ↔ ∃ B', Writes dbg m p' B' ∧ out' = A ++ B' ++ C :=
  edit_local h n out hw

theorem written_accepting {dbg : Bool} {name : EName} {v : Ser} {b : Builder} {m : Namespaces} {q : WName} {as : List (WName × String)} {es : List WEvent}
    (h1 : v.attrs.run dbg (Builder.new name []) = .ok (b, .ok ())) (h2 : b.ns.finalize = .ok m) (h3 : m.resolveElement b.name = .ok q)
    (h4 : resolveAttrs m b.attrs = .ok as) (h5 : Writes dbg m v.children es) :
    ∃ s, serializeTo dbg accepting name v.attrs v.children = .ok (s, .ok ()) ∧ s.out = .start q as m.byPrefix :: (es ++ [.stop]) := by
  have hst := start_accepting h2 h3 h4 (s := Open.empty) rfl
  obtain ⟨t', k1, k2, k3⟩ := run_of_writes h5 (t := { Open.empty with out := Open.empty.out ++ [.start q as m.byPrefix], steps := Open.empty.steps ++ [.wrote (.start q as m.byPrefix) (some (b.name, b.attrs))] }) rfl
  refine ⟨{ t' with out := t'.out ++ [.stop], steps := t'.steps ++ [.wrote .stop none] }, ?_, ?_⟩
  · unfold serializeTo
    simp only [h1]
    rw [show b.start accepting { out := [], poison := none, steps := [] } = _ from hst]
    simp only
    rw [show v.children.run dbg accepting (.cons (h := .writer false) m .nil) _ = _ from k1]
    simp only [write_accepting k2]
  · simp only [k3]
    simp [Open.empty]

/-- What a successful serialization writes: the start of the root element, what is in it, its end. -/
theorem C99_written (dbg : Bool) (name : EName) (v : Ser) (out : List WEvent) :
    (∃ sink s, serializeTo dbg sink name v.attrs v.children = .ok (s, .ok ()) ∧ s.out = out) ↔
    ∃ b m q as es, v.attrs.run dbg (Builder.new name []) = .ok (b, .ok ()) ∧ b.ns.finalize = .ok m ∧ m.resolveElement b.name = .ok q ∧
      resolveAttrs m b.attrs = .ok as ∧ Writes dbg m v.children es ∧ out = .start q as m.byPrefix :: (es ++ [.stop]) := by
  constructor
  · rintro ⟨sink, s, h1, rfl⟩
    have h0 := serializeTo_sticky h1
    unfold serializeTo at h1
    simp only at h1
    split at h1
    · simp at h1
    · simp at h1
    · rename_i b hb
      split at h1
      · simp at h1
      · simp at h1
      · rename_i s1 m hs
        obtain ⟨m', q, as, f1, f2, f3, rfl, h4⟩ := start_cases hs
        split at h1
        · simp at h1
        · simp at h1
        · rename_i s2 hc
          simp only [Except.ok.injEq] at h1
          have hw : (s2.write sink .stop none).1.poison = none := write_ok (by rw [h1])
          obtain ⟨g1, g2, -⟩ := write_clean hw
          obtain ⟨k1, es, k2, k3⟩ := writes_of_run (show doing dbg sink m v.children _ = _ from hc) g1
          obtain ⟨l1, l2, l3⟩ := write_clean k1
          rcases h4 with ⟨-, h4⟩ | ⟨e', h4, -⟩
          · cases h4
            refine ⟨b, m, q, as, es, hb, f1, f2, f3, k3, ?_⟩
            rw [h1] at g2
            rw [g2, k2, l2]
            simp
          · rw [l3] at h4; simp at h4
  · rintro ⟨b, m, q, as, es, h1, h2, h3, h4, h5, rfl⟩
    exact ⟨accepting, written_accepting h1 h2 h3 h4 h5⟩

/-- What can be written to some destination can be written to one that takes everything, with the same events. -/
theorem written_anywhere {dbg : Bool} {sink : Sink} {name : EName} {v : Ser} {s : WState} (h : serializeTo dbg sink name v.attrs v.children = .ok (s, .ok ())) :
    ∃ t, serializeTo dbg accepting name v.attrs v.children = .ok (t, .ok ()) ∧ t.out = s.out := by
  obtain ⟨b, m, q, as, es, h1, h2, h3, h4, h5, h6⟩ := (C99_written dbg name v s.out).mp ⟨sink, s, h, rfl⟩
  rw [h6]
  exact written_accepting h1 h2 h3 h4 h5

/-- **C99**, for documents, whatever the destinations are. -/
theorem C99_document (dbg : Bool) (sink : Sink) (name : EName) (v v' : Ser) (p p' : Prog [.writer false]) (ha : v.attrs = v'.attrs)
    (h : Edit v.children v'.children p p') (s : WState) (hs : serializeTo dbg sink name v.attrs v.children = .ok (s, .ok ())) :
    ∃ m A B C, s.out = A ++ B ++ C ∧ A ≠ [] ∧ C ≠ [] ∧ Writes dbg m p B ∧
      ∀ out', (∃ sink' s', serializeTo dbg sink' name v'.attrs v'.children = .ok (s', .ok ()) ∧ s'.out = out') ↔ ∃ B', Writes dbg m p' B' ∧ out' = A ++ B' ++ C := by
  obtain ⟨b, m, q, as, es, h1, h2, h3, h4, h5, h6⟩ := (C99_written dbg name v s.out).mp ⟨sink, s, hs, rfl⟩
  obtain ⟨m', A, B, C, rfl, k1, k2⟩ := C99_place dbg _ _ p p' h m es h5
  refine ⟨m', .start q as m.byPrefix :: A, B, C ++ [.stop], by rw [h6]; simp, by simp, by simp, k1, fun out' => ?_⟩
  rw [C99_written, ← ha, h1]
  constructor
  · rintro ⟨b', m2, q', as', es', g1, g2, g3, g4, g5, rfl⟩
    cases g1
    rw [h2] at g2
    cases g2
    rw [h3] at g3
    cases g3
    rw [h4] at g4
    cases g4
    obtain ⟨B', l1, rfl⟩ := (k2 es').mp g5
    exact ⟨B', l1, by simp⟩
  · rintro ⟨B', l1, rfl⟩
    exact ⟨b, m, q, as, A ++ B' ++ C, rfl, h2, h3, h4, (k2 _).mpr ⟨B', l1, rfl⟩, by simp⟩

/-! ### Types of Part II -/

theorem set_same {l : List Val} {j : Nat} {v : Val} (h : l[j]? = some v) : l.set j v = l := by
  induction l generalizing j with
  | nil => rfl
  | cons x l ih =>
    cases j with
    | zero => simp at h; simp [h]
    | succ j => simp at h; simp [ih h]

theorem serFields_set (env : Env) (fields : List Field) (vs : List Val) (j : Nat) (f : Field) (v v' : Val) (hf : fields[j]? = some f) (hv : vs[j]? = some v) :
    ∃ pre post, ∀ w, (w = v ∨ w = v') → serFields env fields (vs.set j w) = pre ++ ⟨f.name,
      match f.kind with
      | .element s => .element (slotSer env s w)
      | .attribute o t => .attribute (attrSer o t w)
      | .flatten e => .flatten (serOf env (.enm e) w)
      | .text _ => .text⟩ :: post := by
  induction fields generalizing vs j with
  | nil => simp at hf
  | cons g fs ih =>
    cases vs with
    | nil => simp at hv
    | cons x vs =>
      cases j with
      | zero =>
        simp only [List.getElem?_cons_zero, Option.some.injEq] at hf
        subst hf
        exact ⟨[], serFields env fs vs, fun w _ => rfl⟩
      | succ j =>
        obtain ⟨pre, post, h⟩ := ih vs j (by simpa using hf) (by simpa using hv)
        exact ⟨_ :: pre, post, fun w hw => by rw [List.set_cons_succ, serFields_cons, h w hw]; rfl⟩

theorem writeAttrFields_set (fields : List Field) (vs : List Val) (j : Nat) (f : Field) (v' : Val) (hf : fields[j]? = some f) (hk : ∀ o t, f.kind ≠ .attribute o t) :
    writeAttrFields fields (vs.set j v') = writeAttrFields fields vs := by
  induction fields generalizing vs j with
  | nil => simp at hf
  | cons g fs ih =>
    cases vs with
    | nil => rfl
    | cons x vs =>
      cases j with
      | zero =>
        simp only [List.getElem?_cons_zero, Option.some.injEq] at hf
        subst hf
        simp only [List.set_cons_zero, writeAttrFields]
      | succ j =>
        rw [List.set_cons_succ]
        simp only [writeAttrFields]
        rw [ih vs j (by simpa using hf)]

/-- **C99**, a step of the way: a change in the value of an element field is a change at one place of the struct, and the attributes stay. -/
theorem C99_field (env : Env) (i : Nat) (vs : List Val) (hl : vs.length = (env.strct i).fields.length) (j : Nat) (f : Field) (s : Slot) (v v' : Val)
    (hf : (env.strct i).fields[j]? = some f) (hk : f.kind = .element s) (hv : vs[j]? = some v) (p p' : Prog [.writer false])
    (h : Edit (slotSer env s v f.name.expanded) (slotSer env s v' f.name.expanded) p p') :
    (serOf env (.strct i) (.strct vs)).attrs = (serOf env (.strct i) (.strct (vs.set j v'))).attrs ∧
    Edit (serOf env (.strct i) (.strct vs)).children (serOf env (.strct i) (.strct (vs.set j v'))).children p p' := by
  constructor
  · simp only [serOf, writeAttributes]
    rw [writeAttrFields_set _ vs j f v' hf (by simp [hk])]
  · rw [← (C53_agrees env i).1 vs hl, ← (C53_agrees env i).1 (vs.set j v') (by simpa using hl)]
    obtain ⟨pre, post, hs⟩ := serFields_set env _ vs j f v v' hf hv
    have h1 := hs v (.inl rfl)
    rw [set_same hv] at h1
    rw [h1, hs v' (.inr rfl)]
    simp only [hk]
    exact .field h

/-- **C99**, the same for a flattened field. -/
theorem C99_flatten (env : Env) (i : Nat) (vs : List Val) (hl : vs.length = (env.strct i).fields.length) (j : Nat) (f : Field) (e : Nat) (v v' : Val)
    (hf : (env.strct i).fields[j]? = some f) (hk : f.kind = .flatten e) (hv : vs[j]? = some v) (p p' : Prog [.writer false])
    (h : Edit (serOf env (.enm e) v).children (serOf env (.enm e) v').children p p') :
    (serOf env (.strct i) (.strct vs)).attrs = (serOf env (.strct i) (.strct (vs.set j v'))).attrs ∧
    Edit (serOf env (.strct i) (.strct vs)).children (serOf env (.strct i) (.strct (vs.set j v'))).children p p' := by
  constructor
  · simp only [serOf, writeAttributes]
    rw [writeAttrFields_set _ vs j f v' hf (by simp [hk])]
  · rw [← (C53_agrees env i).1 vs hl, ← (C53_agrees env i).1 (vs.set j v') (by simpa using hl)]
    obtain ⟨pre, post, hs⟩ := serFields_set env _ vs j f v v' hf hv
    have h1 := hs v (.inl rfl)
    rw [set_same hv] at h1
    rw [h1, hs v' (.inr rfl)]
    simp only [hk]
    exact .flatten h

/-- **C99**, and for the payload of a variant. -/
theorem C99_payload (env : Env) (i j : Nat) (w : Variant) (s : Slot) (v v' : Val) (hw : (env.enm i).variants[j]? = some w) (hk : w.skip = false) (hs : w.slot = some s)
    (p p' : Prog [.writer false]) (h : Edit (slotSer env s v w.name.expanded) (slotSer env s v' w.name.expanded) p p') :
    (serOf env (.enm i) (.enm j (some v))).attrs = (serOf env (.enm i) (.enm j (some v'))).attrs ∧
    Edit (serOf env (.enm i) (.enm j (some v))).children (serOf env (.enm i) (.enm j (some v'))).children p p' := by
  refine ⟨rfl, ?_⟩
  rw [← (C53_agrees env i).2, ← (C53_agrees env i).2]
  simp only [serVariant, hw, hk, hs]
  exact .payload h

/-- **C99**, together: another value for an element field of a derived struct. -/
theorem C99_derived (dbg : Bool) (sink : Sink) (env : Env) (name : EName) (i : Nat) (vs : List Val) (hl : vs.length = (env.strct i).fields.length) (j : Nat) (f : Field) (sl : Slot)
    (v v' : Val) (hf : (env.strct i).fields[j]? = some f) (hk : f.kind = .element sl) (hv : vs[j]? = some v) (s : WState)
    (hs : serializeVal dbg sink env name (.strct i) (.strct vs) = .ok (s, .ok ())) :
    ∃ m A B C, s.out = A ++ B ++ C ∧ A ≠ [] ∧ C ≠ [] ∧ Writes dbg m (slotSer env sl v f.name.expanded) B ∧
      ∀ out', (∃ sink' s', serializeVal dbg sink' env name (.strct i) (.strct (vs.set j v')) = .ok (s', .ok ()) ∧ s'.out = out') ↔
        ∃ B', Writes dbg m (slotSer env sl v' f.name.expanded) B' ∧ out' = A ++ B' ++ C := by
  obtain ⟨h1, h2⟩ := C99_field env i vs hl j f sl v v' hf hk hv _ _ .here
  exact C99_document dbg sink name _ _ _ _ h1 h2 s hs

/-! ### An example: in a library, the first book gets other books inside -/

namespace ExL
open ExS

def books (l : List Val) : List Val :=
  [ExS.str "7", .opt (some (ExS.str "en")), ExS.str "T", .vec [book true l, book false []], .enm 1 (some (.vec [book true []])), .opt none]

/-- The field `sub` of the first element of the field `book`. -/
theorem deep (l l' : List Val) :
    (serOf env (.strct 0) (.strct (books l))).attrs = (serOf env (.strct 0) (.strct (books l'))).attrs ∧
    Edit (serOf env (.strct 0) (.strct (books l))).children (serOf env (.strct 0) (.strct (books l'))).children
      (fieldVec (l.map (serOf env (.strct 1))) ⟨"urn:d", "sub"⟩) (fieldVec (l'.map (serOf env (.strct 1))) ⟨"urn:d", "sub"⟩) := by
  obtain ⟨h1, h2⟩ := C99_field env 1 [.text (.bool true), .vec l] rfl 1 _ _ (.vec l) (.vec l') rfl rfl rfl _ _ .here
  exact C99_field env 0 (books l) rfl 3 _ _ _ (.vec [book true l', book false []]) rfl rfl rfl _ _
    (Edit.items (a := []) (b := [serOf env (.strct 1) (book false [])]) (.item (.one h1 h2)))

end ExL

section
attribute [local semireducible] writeChildren writeField writeVec writeElemFields writeFlattens

example :
    ∃ s s', serializeVal true ExS.fine ExS.env ExS.libName (.strct 0) (.strct (ExL.books [ExS.book false []])) = .ok (s, .ok ()) ∧
      serializeVal true ExS.fine ExS.env ExS.libName (.strct 0) (.strct (ExL.books [])) = .ok (s', .ok ()) ∧
      s'.out = s.out.take 8 ++ s.out.drop 13 := ⟨_, _, rfl, rfl, rfl⟩

/-- Another title. -/
example (t : String) := C99_derived true ExS.fine ExS.env ExS.libName 0 (ExL.books []) rfl 2 _ _ _ (ExS.str t) rfl rfl rfl _ rfl

/-- Other books in the payload of the variant in the flattened field. -/
example (l : List Val) := C99_payload ExS.env 0 1 _ _ (.vec [ExS.book true []]) (.vec l) rfl rfl rfl _ _ .here

example (l : List Val) := C99_flatten ExS.env 0 (ExL.books []) rfl 4 _ _ _ (.enm 1 (some (.vec l))) rfl rfl rfl _ _
  (C99_payload ExS.env 0 1 _ _ (.vec [ExS.book true []]) (.vec l) rfl rfl rfl _ _ .here).2
end

end SX
