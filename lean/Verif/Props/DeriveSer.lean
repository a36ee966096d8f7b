import Verif.Proof.DeriveSerTotal
import Verif.Proof.DeriveSerStops
import Verif.Props.Writer

namespace SX
open Spec

/-! Concrete types used to show that hypotheses are met. -/
namespace ExS

attribute [local semireducible] writeChildren writeField writeVec writeElemFields writeFlattens

def nd (l : String) : DName := { ns := some "urn:d", loc := l }
def nx (l : String) : DName := { ns := some "urn:x", loc := l }
def nn (l : String) : DName := { ns := none, loc := l }

/-- ```
#[static_xml(default_namespace = "urn:d", namespace = "x: urn:x", prefix = "")]
struct Lib { #[attribute] id: String, #[attribute, prefix = "x"] lang: Option<String>,
  #[prefix = ""] title: String, #[prefix = ""] book: Vec<Book>, #[flatten] kind: Kind, #[prefix = "x"] note: Option<String> }
#[static_xml(default_namespace = "urn:d", prefix = "")]
struct Book { #[prefix = ""] n: bool, #[prefix = ""] sub: Vec<Book> }
#[static_xml(namespace = "y: urn:x")]
enum Kind { #[prefix = "y"] A, #[prefix = "y"] B(Vec<Book>), #[skip] C }
``` -/
def libFields : List Field :=
  [{ name := nn "id", kind := .attribute false .string, default := none },
   { name := nx "lang", kind := .attribute true .string, default := none },
   { name := nd "title", kind := .element { card := .one, ty := .text .string }, default := none },
   { name := nd "book", kind := .element { card := .many, ty := .strct 1 }, default := none },
   { name := nn "kind", kind := .flatten 0, default := none },
   { name := nx "note", kind := .element { card := .opt, ty := .text .string }, default := none }]

def bookFields : List Field :=
  [{ name := nd "n", kind := .element { card := .one, ty := .text .bool }, default := none },
   { name := nd "sub", kind := .element { card := .many, ty := .strct 1 }, default := none }]

def kinds : List Variant :=
  [{ name := nx "a", slot := none, skip := false },
   { name := nx "b", slot := some { card := .many, ty := .strct 1 }, skip := false },
   { name := nx "c", slot := none, skip := true }]

def env : Env where
  strct i := match i with
    | 0 => { root := nd "Lib", namespaces := [("", "urn:d"), ("x", "urn:x")], fields := libFields }
    | 1 => { root := nd "Book", namespaces := [("", "urn:d")], fields := bookFields }
    | _ => { root := nd "None", namespaces := [], fields := [] }
  enm i := match i with
    | 0 => { ident := "Kind", root := nx "Kind", namespaces := [("y", "urn:x")], variants := kinds }
    | _ => { ident := "None", root := nx "None", namespaces := [], variants := [] }

theorem env_declared : NamesDeclared env where
  mappings := by
    intro ty x hx
    cases ty with
    | text t => simp [declaredNs] at hx
    | strct i =>
      simp only [declaredNs, env] at hx
      split at hx
      · simp only [List.mem_cons, List.not_mem_nil, or_false] at hx
        rcases hx with rfl | rfl <;> exact ⟨by decide, by decide, by decide⟩
      · simp only [List.mem_cons, List.not_mem_nil, or_false] at hx
        subst hx; exact ⟨by decide, by decide, by decide⟩
      · simp at hx
    | enm i =>
      simp only [declaredNs, env] at hx
      split at hx
      · simp only [List.mem_cons, List.not_mem_nil, or_false] at hx
        subst hx; exact ⟨by decide, by decide, by decide⟩
      · simp at hx
  elems := by
    intro i f s hf hk
    simp only [env] at hf ⊢
    split at hf
    · simp only [libFields, List.mem_cons, List.not_mem_nil, or_false] at hf
      rcases hf with rfl | rfl | rfl | rfl | rfl | rfl <;> simp [nd, nn, nx, DName.expanded, ElemNsOk, urls] at hk ⊢
    · simp only [bookFields, List.mem_cons, List.not_mem_nil, or_false] at hf
      rcases hf with rfl | rfl <;> simp [nd, nn, nx, DName.expanded, ElemNsOk, urls] at hk ⊢
    · simp at hf
  attrs := by
    intro i f o t hf hk
    simp only [env] at hf ⊢
    split at hf
    · simp only [libFields, List.mem_cons, List.not_mem_nil, or_false] at hf
      rcases hf with rfl | rfl | rfl | rfl | rfl | rfl <;> simp [nd, nn, nx, DName.expanded, urls] at hk ⊢
    · simp only [bookFields, List.mem_cons, List.not_mem_nil, or_false] at hf
      rcases hf with rfl | rfl <;> simp [nd, nn, nx, DName.expanded, urls] at hk ⊢
    · simp at hf
  variants := by
    intro i w hw _
    simp only [env] at hw ⊢
    split at hw
    · simp only [kinds, List.mem_cons, List.not_mem_nil, or_false] at hw
      rcases hw with rfl | rfl | rfl <;> simp [nx, DName.expanded, ElemNsOk, urls]
    · simp at hw

theorem env_named : AllNamed env where
  fields := by
    intro i f s hf hk
    simp only [env] at hf
    split at hf
    · simp only [libFields, List.mem_cons, List.not_mem_nil, or_false] at hf
      rcases hf with rfl | rfl | rfl | rfl | rfl | rfl <;> simp [nd, nn, nx, DName.expanded] at hk ⊢
    · simp only [bookFields, List.mem_cons, List.not_mem_nil, or_false] at hf
      rcases hf with rfl | rfl <;> simp [nd, nn, nx, DName.expanded] at hk ⊢
    · simp at hf
  variants := by
    intro i w hw _
    simp only [env] at hw
    split at hw
    · simp only [kinds, List.mem_cons, List.not_mem_nil, or_false] at hw
      rcases hw with rfl | rfl | rfl <;> simp [nx, DName.expanded]
    · simp at hw

theorem env_distinct : AttrsDistinct env := by
  intro i p q f g o t o' t' hf hg hk hk' hn
  simp only [env] at hf hg
  split at hf
  · rcases p with _ | _ | _ | _ | _ | _ | p <;> rcases q with _ | _ | _ | _ | _ | _ | q <;> simp_all [libFields] <;> subst hf <;>
      subst hg <;> simp_all [DName.expanded, nd, nn, nx]
  · rcases p with _ | _ | p <;> rcases q with _ | _ | q <;> simp_all [bookFields] <;> subst hf <;> subst hg <;> simp_all
  · simp at hf

def str (s : String) : Val := .text (.str s)
def book (b : Bool) (l : List Val) : Val := .strct [.text (.bool b), .vec l]

/-- A value: nested books, an attribute in a namespace, a flattened variant with a `Vec`. -/
def lib : Val := .strct [str "7", .opt (some (str "en")), str "T", .vec [book true [book false []], book false []],
  .enm 1 (some (.vec [book true []])), .opt none]

theorem book_ty (b : Bool) (l : List Val) (h : ∀ v ∈ l, HasTy env (.strct 1) v) : HasTy env (.strct 1) (book b l) := by
  refine .strct rfl ?_ ?_ ?_
  · intro p f v hf hv
    rcases p with _ | _ | p <;> simp [env, bookFields] at hf hv <;> subst hf <;> subst hv <;> simp [Shape, CardOk]
  · intro p f s v w hf hv hk hw
    rcases p with _ | _ | p <;> simp [env, bookFields] at hf hv <;> subst hf <;> subst hv <;> simp at hk <;> subst hk <;>
      simp [valuesOf] at hw
    · subst hw; exact .text rfl
    · exact h w hw
  · intro p f e v hf hv hk
    rcases p with _ | _ | p <;> simp [env, bookFields] at hf hv <;> subst hf <;> simp at hk

theorem lib_ty : HasTy env (.strct 0) lib := by
  have h0 : ∀ b, HasTy env (.strct 1) (book b []) := fun b => book_ty b [] (by simp)
  refine .strct rfl ?_ ?_ ?_
  · intro p f v hf hv
    rcases p with _ | _ | _ | _ | _ | _ | p <;> simp [env, libFields] at hf hv <;> subst hf <;> subst hv <;>
      first
      | trivial
      | exact ⟨_, rfl⟩
      | exact ⟨_, rfl, rfl⟩
      | exact .inr ⟨_, rfl, _, rfl, rfl⟩
  · intro p f s v w hf hv hk hw
    rcases p with _ | _ | _ | _ | _ | _ | p <;> simp [env, libFields] at hf hv <;> subst hf <;> subst hv <;> simp at hk <;> subst hk <;>
      simp [valuesOf] at hw
    · subst hw; exact .text rfl
    · rcases hw with rfl | rfl
      · exact book_ty _ _ (by simpa using h0 false)
      · exact h0 false
  · intro p f e v hf hv hk
    rcases p with _ | _ | _ | _ | _ | _ | p <;> simp [env, libFields] at hf hv <;> subst hf <;> subst hv <;> simp at hk
    subst hk
    refine .payload (w := kinds[1]) (s := { card := .many, ty := .strct 1 }) rfl rfl ⟨_, rfl⟩ ?_
    simp only [valuesOf, List.mem_singleton, forall_eq]
    exact h0 true

def libName : EName := { ns := "urn:d", loc := "Lib" }

def fine : Sink := fun _ _ => none

/-- What the serializer writes for it. -/
theorem lib_out : ∃ s, serializeVal true fine env libName (.strct 0) lib = .ok (s, .ok ()) ∧ s.out.length = 25 :=
  ⟨_, rfl, rfl⟩

end ExS

/-! ## The document of a value -/

theorem shows_unique {env : Env} {l : List Item} {f g : EForest} (h : Shows env l f) (h' : Shows env l g) : f = g := by
  induction h generalizing g with
  | nil => cases h'; rfl
  | unit rest ih => cases h' with | unit r => rw [ih r]
  | text h rest ih =>
    cases h' with
    | text h2 r =>
      rw [h] at h2
      cases h2
      rw [ih r]
  | strct c rest ihc ih => cases h' with | strct c2 r => rw [ihc c2, ih r]
  | enm c rest ihc ih => cases h' with | enm c2 r => rw [ihc c2, ih r]

/-- C32: every value has exactly one declared structure. -/
theorem C32_represented {env : Env} {ty : Ty} {v : Val} (h : HasTy env ty v) (name : EName) :
    ∃ as g, Represents env name ty v as g ∧ ∀ as' g', Represents env name ty v as' g' → as' = as ∧ g' = g := by
  obtain ⟨as, g, hr⟩ := represents_exists h name
  refine ⟨as, g, hr, ?_⟩
  intro as' g' hr'
  have := shows_unique hr' hr
  simp only [EForest.elem.injEq] at this
  exact ⟨this.2.1, this.2.2.1⟩

example : HasTy ExS.env (.strct 0) ExS.lib := ExS.lib_ty

/-- C32, up to namespaces: the generated code asks the writer for exactly the declared structure, with declared names. -/
theorem C32_asked (env : Env) (hd : AttrsDistinct env) {name : EName} {ty : Ty} {v : Val} {as : List (EName × String)} {g : EForest}
    (h : Represents env name ty v as g) :
    documentAsked name (writeAttributes env ty v) (writeChildren env ty v .ret) = some (.start name as :: (g.events ++ [.stop])) :=
  derived_asked env hd h

example : ∃ as, ∃ g : EForest, documentAsked ExS.libName (writeAttributes ExS.env (.strct 0) ExS.lib) (writeChildren ExS.env (.strct 0) ExS.lib .ret) =
    some (.start ExS.libName as :: (g.events ++ [.stop])) := by
  obtain ⟨as, g, h, -⟩ := C32_represented ExS.lib_ty ExS.libName
  exact ⟨as, g, C32_asked ExS.env ExS.env_distinct h⟩

/-- C32: what is written, read by the rules of XML namespaces, is exactly the declared structure; and it is
written, if no write fails.  Missing: values with elements in no namespace within elements that declare a default namespace
(`RootPlainFree`), see `C31_no_namespace_counterexample` and `C32_no_namespace_counterexample`. -/
theorem C32_document_partial (dbg : Bool) (sink : Sink) (env : Env) (henv : NamesDeclared env) (hd : AttrsDistinct env)
    (name : EName) (ty : Ty) (hn : ElemNsOk (urls (declaredNs env ty)) name) (v : Val) (as : List (EName × String)) (g : EForest)
    (h : Represents env name ty v as g) (hpf : RootPlainFree env name ty v) :
    ∃ s r, serializeVal dbg sink env name ty v = .ok (s, r) ∧
      (r = .ok () → resolveEvents s.out [] = some (.start name as :: (g.events ++ [.stop]))) ∧
      ((∀ out e, sink out e = none) → r = .ok ()) := by
  have hdec := derived_declared env henv h hn hpf
  obtain ⟨s, r, hs⟩ := serializeTo_total dbg sink name _ _ hdec
  refine ⟨s, r, hs, ?_, fun hsink => serializeTo_accepted hsink hs (derived_asked env hd h)⟩
  rintro rfl
  obtain ⟨es, h1, h2⟩ := C29_declared_partial hdec (noForget_children env h) hs
  rw [derived_asked env hd h] at h1
  cases h1
  exact h2

/-- C32, with a condition on the types only: they declare no default namespaces, or use only elements in namespaces. -/
theorem C32_types_partial (dbg : Bool) (sink : Sink) (env : Env) (henv : NamesDeclared env) (hd : AttrsDistinct env)
    (name : EName) (ty : Ty) (hn : ElemNsOk (urls (declaredNs env ty)) name) (hc : NoClash env name) (v : Val) (hv : HasTy env ty v) :
    ∃ s r as g, serializeVal dbg sink env name ty v = .ok (s, r) ∧ Represents env name ty v as g ∧
      (r = .ok () → resolveEvents s.out [] = some (.start name as :: (g.events ++ [.stop]))) ∧
      ((∀ out e, sink out e = none) → r = .ok ()) := by
  obtain ⟨as, g, h⟩ := represents_exists hv name
  obtain ⟨s, r, hs⟩ := C32_document_partial dbg sink env henv hd name ty hn v as g h (rootPlainFree_of hc hv)
  exact ⟨s, r, as, g, hs.1, h, hs.2⟩

/-- Concrete instance: nested structs and a flattened enum with a `Vec`, in a default namespace. -/
example : ∃ s, serializeVal true ExS.fine ExS.env ExS.libName (.strct 0) ExS.lib = .ok (s, .ok ()) ∧
    ∃ as g, Represents ExS.env ExS.libName (.strct 0) ExS.lib as g ∧ resolveEvents s.out [] = some (.start ExS.libName as :: (g.events ++ [.stop])) := by
  obtain ⟨as, g, h, -⟩ := C32_represented ExS.lib_ty ExS.libName
  obtain ⟨s, r, h1, h2, h3⟩ := C32_document_partial true ExS.fine ExS.env ExS.env_declared ExS.env_distinct ExS.libName (.strct 0)
    (.inr (.inl (by simp [ExS.libName, urls, declaredNs, ExS.env]))) ExS.lib as g h
    (rootPlainFree_of (.inr ⟨ExS.env_named, by decide⟩) ExS.lib_ty)
  have hr := h3 fun _ _ => rfl
  subst hr
  exact ⟨s, h1, as, g, h, h2 rfl⟩

/-! ## C31 -/

/-- C31: serializing a value of derived types never panics, if every name uses a namespace that its type declares (which
the macros check, see C37).  Missing: values with elements in no namespace within elements that declare a default namespace; there
the code panics, see `C31_no_namespace_counterexample`. -/
theorem C31_never_panics_partial (dbg : Bool) (sink : Sink) (env : Env) (henv : NamesDeclared env) (name : EName) (ty : Ty)
    (hn : ElemNsOk (urls (declaredNs env ty)) name) (v : Val) (hv : HasTy env ty v) (hpf : RootPlainFree env name ty v) :
    ∃ s r, serializeVal dbg sink env name ty v = .ok (s, r) := by
  obtain ⟨as, g, h⟩ := represents_exists hv name
  exact serializeTo_total dbg sink name _ _ (derived_declared env henv h hn hpf)

example : NamesDeclared ExS.env ∧ ElemNsOk (urls (declaredNs ExS.env (.strct 0))) ExS.libName ∧ HasTy ExS.env (.strct 0) ExS.lib ∧
    RootPlainFree ExS.env ExS.libName (.strct 0) ExS.lib :=
  ⟨ExS.env_declared, .inr (.inl (by simp [ExS.libName, urls, declaredNs, ExS.env])), ExS.lib_ty,
    rootPlainFree_of (.inr ⟨ExS.env_named, by decide⟩) ExS.lib_ty⟩

/-- C31, with a condition on the types only: if they declare no default namespaces, or use only elements in namespaces, no value
of them makes serialization panic. -/
theorem C31_types_partial (dbg : Bool) (sink : Sink) (env : Env) (henv : NamesDeclared env) (name : EName) (ty : Ty)
    (hn : ElemNsOk (urls (declaredNs env ty)) name) (hc : NoClash env name) (v : Val) (hv : HasTy env ty v) :
    ∃ s r, serializeVal dbg sink env name ty v = .ok (s, r) :=
  C31_never_panics_partial dbg sink env henv name ty hn v hv (rootPlainFree_of hc hv)

example : NoClash ExS.env ExS.libName := .inr ⟨ExS.env_named, by decide⟩

/-- ```
#[static_xml(namespace = "p: urn:d")]
struct Outer { a: String, #[static_xml(prefix = "p")] inner: Inner, b: String }
#[static_xml(default_namespace = "urn:d", prefix = "")]
struct Inner { #[static_xml(prefix = "")] x: bool }
```
Elements in no namespace before and after, but not inside, an element that declares a default namespace. -/
def ExS.beside : Env where
  strct i := match i with
    | 0 => { root := nn "Outer", namespaces := [("p", "urn:d")], fields :=
        [{ name := nn "a", kind := .element { card := .one, ty := .text .string }, default := none },
         { name := nd "inner", kind := .element { card := .one, ty := .strct 1 }, default := none },
         { name := nn "b", kind := .element { card := .one, ty := .text .string }, default := none }] }
    | _ => { root := nd "Inner", namespaces := [("", "urn:d")], fields :=
        [{ name := nd "x", kind := .element { card := .one, ty := .text .bool }, default := none }] }
  enm _ := { ident := "None", root := nx "None", namespaces := [], variants := [] }

def ExS.besideVal (a b : String) (x : Bool) : Val := .strct [str a, .strct [.text (.bool x)], str b]

/-- Types to which `C31_types_partial` does not apply, but all whose values of this shape satisfy the hypotheses. -/
example (a b : String) (x : Bool) : ¬ NoClash ExS.beside { ns := "", loc := "Outer" } ∧
    RootPlainFree ExS.beside { ns := "", loc := "Outer" } (.strct 0) (ExS.besideVal a b x) := by
  refine ⟨?_, .strct (fun _ => rfl) (.text (fun _ => rfl) (.strct (fun h => absurd h (by simp [ExS.nd, DName.expanded])) (.text (fun h => absurd h (by simp [ExS.nd, DName.expanded])) .nil)
    (.text (fun _ => rfl) .nil))) .nil⟩
  rintro (h | h)
  · have := h (.strct 1)
    simp [asksDefault, ExS.beside] at this
  · exact h.2 rfl

/-- C31: the names of a value's document are those declared, so C31's "every name is resolvable" is the absence of panics; derived
code also never leaks a writer, so by C25 what it writes is balanced. -/
theorem C31_balanced (dbg : Bool) (sink : Sink) (env : Env) (name : EName) (ty : Ty) (v : Val) (hv : HasTy env ty v) (s : WState)
    (h : serializeVal dbg sink env name ty v = .ok (s, .ok ())) :
    ∃ n a ns content, s.out = documentEvents n a ns content := by
  obtain ⟨as, g, hr⟩ := represents_exists hv name
  exact C25_balanced_partial (noForget_children env hr) h

example : ∃ s, serializeVal true ExS.fine ExS.env ExS.libName (.strct 0) ExS.lib = .ok (s, .ok ()) ∧
    ∃ n a ns content, s.out = documentEvents n a ns content := by
  obtain ⟨s, h, -⟩ := ExS.lib_out
  exact ⟨s, h, C31_balanced _ _ _ _ _ _ ExS.lib_ty s h⟩

namespace ExS
attribute [local semireducible] writeChildren writeField writeVec writeElemFields writeFlattens

/-- ```
#[static_xml(default_namespace = "urn:d", prefix = "")]
struct R { x: String, #[prefix = ""] mid: Vec<Mid> }
#[static_xml(namespace = "p: urn:d")]
struct Mid { leaf: String, #[attribute, prefix = "p"] a: String }
``` -/
def bad : Env where
  strct i := match i with
    | 0 => { root := nd "R", namespaces := [("", "urn:d")], fields :=
        [{ name := nn "x", kind := .element { card := .opt, ty := .text .string }, default := none },
         { name := nd "mid", kind := .element { card := .many, ty := .strct 1 }, default := none }] }
    | _ => { root := nd "Mid", namespaces := [("p", "urn:d")], fields :=
        [{ name := nn "leaf", kind := .element { card := .one, ty := .text .string }, default := none },
         { name := nd "a", kind := .attribute false .string, default := none }] }
  enm _ := { ident := "None", root := nx "None", namespaces := [], variants := [] }

def badVal (x : Option Val) (l : List Val) : Val := .strct [.opt x, .vec l]

end ExS

section
attribute [local semireducible] writeChildren writeField writeVec writeElemFields writeFlattens natDigits

/-- C31 is false of the code: a struct with a default namespace and a field without `prefix`.  (`todo!()` at
`ser/mod.rs:396-405`.) -/
theorem C31_no_namespace_counterexample :
    HasTy ExS.bad (.strct 0) (ExS.badVal (some (ExS.str "t")) []) ∧
    serializeVal true ExS.fine ExS.bad { ns := "urn:d", loc := "R" } (.strct 0) (ExS.badVal (some (ExS.str "t")) []) = .error .panic := by
  refine ⟨.strct rfl ?_ ?_ ?_, rfl⟩
  · intro p f v hf hv
    rcases p with _ | _ | p <;> simp [ExS.bad] at hf hv <;> subst hf <;> subst hv <;> simp [Shape, CardOk]
  · intro p f s v w hf hv hk hw
    rcases p with _ | _ | p <;> simp [ExS.bad] at hf hv <;> subst hf <;> subst hv <;> simp at hk <;> subst hk <;>
      simp [valuesOf] at hw
    subst hw; exact .text rfl
  · intro p f e v hf hv hk
    rcases p with _ | _ | p <;> simp [ExS.bad] at hf hv <;> subst hf <;> simp at hk

/-- C32 is false of the code there: a value whose document is written with success, but where an element
declared in no namespace ends up in the default namespace. -/
theorem C32_no_namespace_counterexample : ∃ s as g es,
    let v := ExS.badVal none [.strct [ExS.str "t", ExS.str "v"]]
    let name : EName := { ns := "urn:d", loc := "R" }
    serializeVal true ExS.fine ExS.bad name (.strct 0) v = .ok (s, .ok ()) ∧
    Represents ExS.bad name (.strct 0) v as g ∧
    resolveEvents s.out [] = some es ∧ es ≠ .start name as :: (g.events ++ [.stop]) := by
  refine ⟨_, _, _, [.start { ns := "urn:d", loc := "R" } [], .start { ns := "urn:d", loc := "mid" } [({ ns := "urn:d", loc := "a" }, "v")],
    .start { ns := "urn:d", loc := "leaf" } [], .chars "t", .stop, .stop, .stop], rfl, .strct (.strct (.text rfl .nil) .nil) .nil, ?_, ?_⟩
  · rfl
  · decide

end

/-! ## C26 -/

/-- C26: derived implementations pass on errors at once.  Serialization of a value succeeds without any error on the way; or it reports the
first error, after which nothing was tried any more. -/
theorem C26_derived_stops (dbg : Bool) (sink : Sink) (env : Env) (name : EName) (ty : Ty) (v : Val) (hv : HasTy env ty v) (s : WState)
    (r : Except SErr Unit) (h : serializeVal dbg sink env name ty v = .ok (s, r)) :
    (r = .ok () ∧ s.poison = none ∧ ∀ y ∈ s.steps, stepError y = none) ∨ ∃ e, r = .error e ∧ StoppedBy e s.steps :=
  derived_ended dbg sink env name hv _ h

section
attribute [local semireducible] writeChildren writeField writeVec writeElemFields writeFlattens natDigits

/-- Two books, where text cannot be written: the second one is not tried. -/
example : HasTy ExS.env (.strct 1) (ExS.book true [ExS.book true []]) ∧
    ∃ s, serializeVal true ExW.noText ExS.env { ns := "urn:d", loc := "Book" } (.strct 1) (ExS.book true [ExS.book true []]) =
      .ok (s, .error (.write "disk full")) ∧ s.steps.length = 5 :=
  ⟨ExS.book_ty _ _ fun v hv => by rw [List.mem_singleton.mp hv]; exact ExS.book_ty _ _ (by simp), _, rfl, rfl⟩
end

/-! ## C33, C34 -/

/-- C33 is false of the code: serializing a skipped variant does nothing, without error, whatever the enum. -/
theorem C33_refuted (env : Env) (i j : Nat) (w : Variant) (p : Option Val) (hw : (env.enm i).variants[j]? = some w) (hs : w.skip = true)
    (o : Bool) (handles : List Handle) (k : WCont o handles) : writeChildren env (.enm i) (.enm j p) k = k (.ok ()) := by
  rw [writeVariant_items]
  simp [variantItems, hw, hs, runItems]

/-- C33: so serializing a skipped variant succeeds, with an empty element. -/
theorem C33_skipped_succeeds (dbg : Bool) (env : Env) (henv : NamesDeclared env) (hd : AttrsDistinct env)
    (name : EName) (i j : Nat) (w : Variant) (p : Option Val) (hw : (env.enm i).variants[j]? = some w) (hs : w.skip = true)
    (hn : ElemNsOk (urls (env.enm i).namespaces) name) (hc : name.ns = "" → asksDefault env (.enm i) = false) :
    ∃ s, serializeVal dbg (fun _ _ => none) env name (.enm i) (.enm j p) = .ok (s, .ok ()) ∧
      resolveEvents s.out [] = some [.start name [], .stop] := by
  have hnone : variantItems (env.enm i) (.enm j p) = [] := by simp only [variantItems, hw, hs, if_true]
  have hr : Represents env name (.enm i) (.enm j p) [] .nil := .enm (by rw [hnone]; exact .nil) .nil
  obtain ⟨s, r, h1, h2, h3⟩ := C32_document_partial dbg (fun _ _ => none) env henv hd name (.enm i) hn _ _ _ hr
    (.enm (by simpa using hc) (by rw [hnone]; exact .nil) .nil)
  have hr := h3 fun _ _ => rfl
  subst hr
  exact ⟨s, h1, h2 rfl⟩

example : (ExS.env.enm 0).variants[2]? = some { name := ExS.nx "c", slot := none, skip := true } ∧
    ElemNsOk (urls (ExS.env.enm 0).namespaces) { ns := "urn:x", loc := "Kind" } := ⟨rfl, by simp [ElemNsOk, ExS.env, urls]⟩

/-- C34 is false of the code: fields marked `text` have no influence on what is written.  Values that only differ
there are written in the same way. -/
theorem C34_refuted (dbg : Bool) (sink : Sink) (env : Env) (name : EName) (i : Nat) (vs vs' : List Val) (hl : vs.length = vs'.length)
    (h : ∀ (p : Nat) (f : Field), (env.strct i).fields[p]? = some f → (∀ t, f.kind ≠ .text t) → vs[p]? = vs'[p]?) :
    serializeVal dbg sink env name (.strct i) (.strct vs) = serializeVal dbg sink env name (.strct i) (.strct vs') := by
  have key : ∀ {β : Type} (F : Field → Val → List β), (∀ f v w t, f.kind = .text t → F f v = F f w) → ∀ (fs : List Field) (vs vs' : List Val),
      vs.length = vs'.length →
      (∀ (p : Nat) (f : Field), fs[p]? = some f → (∀ t, f.kind ≠ .text t) → vs[p]? = vs'[p]?) →
      ((fs.zip vs).flatMap fun x => F x.1 x.2) = (fs.zip vs').flatMap fun x => F x.1 x.2 := by
    intro β F hF fs
    induction fs with
    | nil => intros; simp
    | cons f fs ih =>
      intro vs vs' hl h
      cases vs with
      | nil => cases vs' with
        | nil => rfl
        | cons _ _ => simp at hl
      | cons v vs =>
        cases vs' with
        | nil => simp at hl
        | cons v' vs' =>
          simp only [List.zip_cons_cons, List.flatMap_cons]
          rw [ih vs vs' (by simpa using hl) fun p f hf hk => by simpa using h (p + 1) f (by simpa using hf) hk]
          congr 1
          cases hk : f.kind with
          | text t => exact hF f v v' t hk
          | _ =>
            have := h 0 f (by simp) (by simp [hk])
            simp at this
            rw [this]
  have attrs : ∀ (fs : List Field) (vs vs' : List Val), vs.length = vs'.length →
      (∀ (p : Nat) (f : Field), fs[p]? = some f → (∀ t, f.kind ≠ .text t) → vs[p]? = vs'[p]?) →
      writeAttrFields fs vs = writeAttrFields fs vs' := by
    intro fs
    induction fs with
    | nil => intro vs vs' _ _; cases vs <;> cases vs' <;> rfl
    | cons f fs ih =>
      intro vs vs' hl h
      cases vs with
      | nil => cases vs' with
        | nil => rfl
        | cons _ _ => simp at hl
      | cons v vs =>
        cases vs' with
        | nil => simp at hl
        | cons v' vs' =>
          have := ih vs vs' (by simpa using hl) fun p f hf hk => by simpa using h (p + 1) f (by simpa using hf) hk
          simp only [writeAttrFields]
          cases hk : f.kind with
          | «attribute» o t =>
            have h0 := h 0 f (by simp) (by simp [hk])
            simp at h0
            simp only [h0, this]
          | _ => exact this
  have items : structItems env (env.strct i).fields vs = structItems env (env.strct i).fields vs' := by
    unfold structItems
    congr 1
    · refine key (fun f v => match f.kind with
        | .element s => fieldItems s f.name.expanded v
        | _ => []) ?_ _ _ _ hl h
      intro f v w t hk
      simp [hk]
    · refine key (fun f v => match f.kind with
        | .flatten e => variantItems (env.enm e) v
        | _ => []) ?_ _ _ _ hl h
      intro f v w t hk
      simp [hk]
  have ha : writeAttributes env (.strct i) (.strct vs) = writeAttributes env (.strct i) (.strct vs') := by
    simp only [writeAttributes, attrs _ _ _ hl h]
  unfold serializeVal
  rw [ha, writeStruct_items, writeStruct_items, items]

namespace ExS
/-- `struct T { #[static_xml(text)] value: String }` -/
def textEnv : Env where
  strct _ := { root := nn "T", namespaces := [], fields := [{ name := nn "value", kind := .text .string, default := none }] }
  enm _ := { ident := "None", root := nx "None", namespaces := [], variants := [] }
end ExS

section
attribute [local semireducible] writeChildren writeField writeVec writeElemFields writeFlattens

/-- C34: a struct with a text field and the text `hello` is written as an empty element. -/
theorem C34_text_counterexample : HasTy ExS.textEnv (.strct 0) (.strct [ExS.str "hello"]) ∧
    ∃ s, serializeVal true ExS.fine ExS.textEnv { ns := "", loc := "T" } (.strct 0) (.strct [ExS.str "hello"]) = .ok (s, .ok ()) ∧
      s.out = [.start { pfx := none, loc := "T" } [] [], .stop] := by
  refine ⟨.strct rfl ?_ ?_ ?_, _, rfl, rfl⟩
  · intro p f v hf hv
    rcases p with _ | p <;> simp [ExS.textEnv] at hf hv
    subst hf; subst hv; exact ⟨_, rfl, rfl⟩
  · intro p f s v w hf hv hk hw
    rcases p with _ | p <;> simp [ExS.textEnv] at hf hv
    subst hf; simp at hk
  · intro p f e v hf hv hk
    rcases p with _ | p <;> simp [ExS.textEnv] at hf hv
    subst hf; simp at hk
end

/-- C34: the texts `hello` and `goodbye` are written in the same way. -/
example := C34_refuted true ExS.fine ExS.textEnv { ns := "", loc := "T" } 0 [ExS.str "hello"] [ExS.str "goodbye"] rfl (by
  intro p f hf hk
  rcases p with _ | p <;> simp [ExS.textEnv] at hf
  exact absurd (by rw [← hf]) (hk .string))

end SX
