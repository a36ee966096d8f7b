import Verif.Props.Derive

/-
Which of several defects of a document is reported.
-/
namespace SX
open Spec

/-- **C44.** Reading a document as a derived type fails exactly when its root element has a defect, and the
error is the first defect in document order: kind, stack and position. -/
theorem C44_first (dbg : Bool) (env : Env) (hok : EnvOk env) (ty : Ty) (d : Doc) (E : Error) :
    readTy dbg env ty d.input = .ok (.error E) ↔
      ∃ df, bodyErr env (d.root.body env) ty = some df ∧ E = reported d.root df := by
  rw [readTy_doc]
  rcases readDoc_first env hok ty d with ⟨v, h1, -, h2⟩ | ⟨df, h1, h2, -⟩
  · rw [h1, h2]
    simp
  · rw [h1, h2]
    simp only [Except.ok.injEq, Except.error.injEq, Option.some.injEq]
    constructor
    · rintro rfl; exact ⟨df, rfl, rfl⟩
    · rintro ⟨df', rfl, rfl⟩; rfl

/-- **C44.** There is a first defect exactly when there is no value. -/
theorem C44_complete (env : Env) (hok : EnvOk env) (ty : Ty) (d : Doc) :
    bodyErr env (d.root.body env) ty = none ↔ bodyValue env (d.root.body env) ty ≠ none := by
  rcases readDoc_first env hok ty d with ⟨v, -, h1, h2⟩ | ⟨df, -, h2, h3⟩
  · rw [h1, h2]
    simp
  · rw [h2, bodyBad_none env _ (kids_bad_none env _) ty _ _ h3]
    simp

/-- The first complaint: nothing is wrong with anything before it. -/
theorem scan_spec {α β : Type} (f : List α → α → Option β) (seen l : List α) (b : β) :
    scan f seen l = some b ↔ ∃ pre a post, l = pre ++ a :: post ∧ f (seen ++ pre) a = some b ∧
      ∀ pre' a' post', pre = pre' ++ a' :: post' → f (seen ++ pre') a' = none := by
  induction l generalizing seen with
  | nil => simp [scan]
  | cons x l ih =>
    unfold scan
    cases hx : f seen x with
    | some c =>
      constructor
      · intro h
        exact ⟨[], x, l, rfl, by simpa [hx] using h, by simp⟩
      · rintro ⟨pre, a, post, h1, h2, h3⟩
        cases pre with
        | nil =>
          simp only [List.nil_append, List.cons.injEq] at h1
          rw [List.append_nil, ← h1.1, hx] at h2
          exact h2
        | cons y pre =>
          simp only [List.cons_append, List.cons.injEq] at h1
          have := h3 [] y pre rfl
          rw [List.append_nil, ← h1.1, hx] at this
          simp at this
    | none =>
      simp only
      rw [ih]
      constructor
      · rintro ⟨pre, a, post, rfl, h2, h3⟩
        refine ⟨x :: pre, a, post, rfl, by simpa using h2, ?_⟩
        intro pre' a' post' h
        cases pre' with
        | nil =>
          simp only [List.nil_append, List.cons.injEq] at h
          rw [← h.1, List.append_nil]
          exact hx
        | cons y pre' =>
          simp only [List.cons_append, List.cons.injEq] at h
          have := h3 pre' a' post' h.2
          rw [← h.1]
          simpa using this
      · rintro ⟨pre, a, post, h1, h2, h3⟩
        cases pre with
        | nil =>
          simp only [List.nil_append, List.cons.injEq] at h1
          rw [List.append_nil, ← h1.1, hx] at h2
          simp at h2
        | cons y pre =>
          simp only [List.cons_append, List.cons.injEq] at h1
          obtain ⟨rfl, rfl⟩ := h1
          refine ⟨pre, a, post, rfl, by simpa using h2, ?_⟩
          intro pre' a' post' h
          have := h3 (x :: pre') a' post' (by rw [h]; rfl)
          simpa using this

theorem scan_append {α β : Type} (f : List α → α → Option β) (seen l l' : List α) (b : β)
    (h : scan f seen l = some b) : scan f seen (l ++ l') = some b := by
  obtain ⟨pre, a, post, h1, h2⟩ := (scan_spec f seen l b).mp h
  exact (scan_spec f seen _ b).mpr ⟨pre, a, post ++ l', by rw [h1]; simp, h2⟩

/-- **C44.** What the first wrong attribute or child of a struct is: the children before it are all right by
themselves and together. -/
theorem C44_struct_first (dbg : Bool) (env : Env) (hok : EnvOk env) (i : Nat) (d : Doc) (pre : List Kid) (k : Kid)
    (post : List Kid) (rel : List StackElem) (kind : ErrKind)
    (hattrs : ∀ (l : List XAttr) a l', d.root.attrs = l ++ a :: l' → attrErr (env.strct i).fields l a = none)
    (hkids : kids env d.root.children = pre ++ k :: post)
    (hpre : ∀ l x l', pre = l ++ x :: l' → structErr env (env.strct i).fields l x = none)
    (hk : structErr env (env.strct i).fields pre k = some (rel, kind)) :
    readTy dbg env (.strct i) d.input = .ok (.error (reported d.root ⟨rel, kind, false⟩)) := by
  refine (C44_first dbg env hok (.strct i) d _).mpr ⟨_, bodyErr_kids ?_ ?_, rfl⟩
  · cases h : scan (attrErr (env.strct i).fields) [] (d.root.body env).attrs with
    | none => rfl
    | some e =>
      obtain ⟨l, a, l', h1, h2, -⟩ := (scan_spec _ _ _ _).mp h
      have := hattrs l a l' h1
      rw [List.nil_append] at h2
      rw [this] at h2
      simp at h2
  · exact (scan_spec _ _ _ _).mpr ⟨pre, k, post, hkids, hk, fun l x l' h => hpre l x l' h⟩

/-! ## Nothing after the first defect matters -/

theorem kids_append (env : Env) (f g : Forest) : kids env (f.append g) = kids env f ++ kids env g := by
  induction f with
  | nil => rfl
  | elem n a ns p ch ep rest _ ih => simp only [Forest.append, kids, ih, List.cons_append]
  | chars s c p rest ih => exact ih
  | misc m p rest ih => exact ih

/-- **C44.** An error found before the end of the root element is not changed by anything that is added behind. -/
theorem C44_prefix (dbg : Bool) (env : Env) (hok : EnvOk env) (ty : Ty) (d d' : Doc) (more : Forest) (E : Error)
    (hroot : d'.root = { d.root with children := d.root.children.append more, endPos := d'.root.endPos })
    (h : readTy dbg env ty d.input = .ok (.error E)) (hE : E.pos ≠ d.root.endPos) :
    readTy dbg env ty d'.input = .ok (.error E) := by
  obtain ⟨⟨rel, kind, late⟩, h1, rfl⟩ := (C44_first dbg env hok ty d E).mp h
  cases late with
  | true => simp [reported] at hE
  | false =>
    refine (C44_first dbg env hok ty d' _).mpr ⟨⟨rel, kind, false⟩, ?_, ?_⟩
    · rw [hroot]
      unfold Elem.body at h1 ⊢
      simp only [kids_append]
      unfold bodyErr at h1 ⊢
      cases ty with
      | text t =>
        simp only at h1 ⊢
        cases hk : kids env d.root.children with
        | nil =>
          rw [hk] at h1
          simp only at h1
          split at h1 <;> simp at h1
        | cons k ks => rw [hk] at h1; exact h1
      | strct i =>
        simp only at h1 ⊢
        split at h1
        · exact h1
        · split at h1
          · rename_i heq'
            rw [scan_append _ _ _ _ _ heq']
            exact h1
          · obtain ⟨k, -, h2⟩ := Option.map_eq_some_iff.mp h1
            simp at h2
      | enm i =>
        simp only at h1 ⊢
        split at h1
        · rename_i heq'
          rw [scan_append _ _ _ _ _ heq']
          exact h1
        · split at h1 <;> simp at h1
    · rw [hroot]
      rfl

namespace Ex

/-- Two defects: the second `note` comes before the wrong `b`. -/
def twoDefects : Forest :=
  leaf (q "note") "1" (leaf (q "zzz") "?" (leaf (q "note") "2" (.elem (q "b") [] [] (p 4) (leaf (q "n") "maybe" .nil) (p 5) .nil)))

def defDoc (f : Forest) : Doc := docOf [{ name := q "id", value := "7" }] f

example : EnvOk env ∧ readTy true env (.strct 0) (defDoc twoDefects).input =
    .ok (.error { kind := .deserializer (.duplicateElement (q "note").expanded),
                  stack := [{ name := q "r", pos := p 2 }, { name := q "note", pos := p 1 }], pos := p 1 }) :=
  ⟨env_ok, rfl⟩

/-- The hypotheses of `C44_struct_first` for that document. -/
example : ∃ k1 k2 k3 k4 : Kid, kids env (defDoc twoDefects).root.children = [k1, k2] ++ k3 :: [k4] ∧
    (∀ (l : List XAttr) a l', (defDoc twoDefects).root.attrs = l ++ a :: l' → attrErr (env.strct 0).fields l a = none) ∧
    (∀ l x l', [k1, k2] = l ++ x :: l' → structErr env (env.strct 0).fields l x = none) ∧
    structErr env (env.strct 0).fields [k1, k2] k3 =
      some ([{ name := q "note", pos := p 1 }], .deserializer (.duplicateElement (q "note").expanded)) := by
  refine ⟨_, _, _, _, rfl, ?_, ?_, rfl⟩
  · intro l a l' h
    rcases l with _ | ⟨x, l⟩
    · simp only [defDoc, docOf, List.nil_append, List.cons.injEq] at h
      rw [← h.1]
      rfl
    · simp [defDoc, docOf] at h
  · intro l x l' h
    rcases l with _ | ⟨y, _ | ⟨z, l⟩⟩
    · simp only [List.nil_append, List.cons.injEq] at h
      rw [← h.1]
      rfl
    · simp only [List.cons_append, List.nil_append, List.cons.injEq] at h
      rw [← h.1, ← h.2.1]
      rfl
    · simp at h

/-- Without the second `note` it is the wrong `n` inside `b`. -/
example : readTy true env (.strct 0)
    (defDoc (leaf (q "note") "1" (.elem (q "b") [] [] (p 4) (.elem (q "n") [] [] (p 5) (.chars "maybe" false (p 6) .nil) (p 7) .nil) (p 8) .nil))).input =
    .ok (.error { kind := .deserializer (.text (.invalidBool "maybe")),
                  stack := [{ name := q "r", pos := p 2 }, { name := q "b", pos := p 4 }, { name := q "n", pos := p 5 }], pos := p 5 }) :=
  rfl

/-- Without that, the missing `title`, at the end. -/
example : readTy true env (.strct 0) (defDoc (leaf (q "note") "1" .nil)).input =
    .ok (.error { kind := .deserializer (.missingElement (du "title").expanded),
                  stack := [{ name := q "r", pos := p 2 }], pos := p 15 }) := rfl

/-- An error before the end, and what is added behind. -/
example : ∃ E, readTy true env (.strct 0) (defDoc (leaf (q "note") "1" (leaf (q "note") "2" .nil))).input = .ok (.error E) ∧
    E.pos ≠ (defDoc (leaf (q "note") "1" (leaf (q "note") "2" .nil))).root.endPos ∧
    (defDoc (leaf (q "note") "1" (leaf (q "note") "2" (leaf (q "zzz") "?" .nil)))).root =
      { (defDoc (leaf (q "note") "1" (leaf (q "note") "2" .nil))).root with
        children := (defDoc (leaf (q "note") "1" (leaf (q "note") "2" .nil))).root.children.append (leaf (q "zzz") "?" .nil)
        endPos := (defDoc (leaf (q "note") "1" (leaf (q "note") "2" (leaf (q "zzz") "?" .nil)))).root.endPos } :=
  ⟨{ kind := .deserializer (.duplicateElement (q "note").expanded),
     stack := [{ name := q "r", pos := p 2 }, { name := q "note", pos := p 1 }], pos := p 1 }, rfl, by simp [defDoc, docOf, p], rfl⟩

end Ex

namespace Ex

example := C44_complete env env_ok (.strct 0) (defDoc twoDefects)

/-- More behind the two defects changes nothing. -/
example (more : Forest) : readTy true env (.strct 0) (defDoc (twoDefects.append more)).input = readTy true env (.strct 0) (defDoc twoDefects).input :=
  C44_prefix true env env_ok (.strct 0) (defDoc twoDefects) _ more _ rfl rfl (by decide)

end Ex

end SX
