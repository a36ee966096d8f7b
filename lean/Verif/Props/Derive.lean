import Verif.Proof.DerivePrune
import Verif.Props.Reader

namespace SX
open Spec

/-! Concrete types and documents used to show that hypotheses are met. -/
namespace Ex

def dn (l : String) : DName := { ns := none, loc := l }
def du (l : String) : DName := { ns := some "urn:u", loc := l }
def str : Slot := { card := .one, ty := .text .string }

/-- ```
struct Rec { title: String, note: Option<String>, tag: Vec<String>, #[attribute] id: String,
             #[flatten] choice: Choice }
struct Sub { n: bool }
``` -/
def recFields : List Field :=
  [{ name := du "title", kind := .element str, default := none },
   { name := dn "note", kind := .element { card := .opt, ty := .text .string }, default := none },
   { name := dn "tag", kind := .element { card := .many, ty := .text .string }, default := none },
   { name := dn "id", kind := .attribute false .string, default := none },
   { name := dn "choice", kind := .flatten 0, default := none }]

def subFields : List Field := [{ name := dn "n", kind := .element { card := .one, ty := .text .bool }, default := none }]

/-- ```
enum Choice { A, B(Sub), C(Vec<String>) }
enum Other { X, Y }
``` -/
def choice : List Variant :=
  [{ name := dn "a", slot := none, skip := false },
   { name := dn "b", slot := some { card := .one, ty := .strct 1 }, skip := false },
   { name := dn "c", slot := some { card := .many, ty := .text .string }, skip := false }]

def other : List Variant :=
  [{ name := dn "x", slot := none, skip := false }, { name := dn "y", slot := none, skip := false }]

/-- `struct Two { #[flatten] first: Choice, #[flatten] second: Other }` -/
def twoFields : List Field :=
  [{ name := dn "first", kind := .flatten 0, default := none }, { name := dn "second", kind := .flatten 1, default := none }]

def env : Env where
  strct i := { root := dn "r", namespaces := [], fields := match i with
    | 0 => recFields
    | 1 => subFields
    | 2 => twoFields
    | _ => [] }
  enm i := { ident := if i = 0 then "Choice" else "Other", root := dn "r", namespaces := [], variants := match i with
    | 0 => choice
    | 1 => other
    | _ => [] }

theorem env_ok : EnvOk env where
  elems := by
    intro i p q f g s s' hf hg hk hk' hn
    simp only [env] at hf hg
    split at hf
    · rcases p with _ | _ | _ | _ | _ | p <;> rcases q with _ | _ | _ | _ | _ | q <;> simp_all [recFields] <;> subst hf <;>
        subst hg <;> simp_all [DName.expanded, dn, du]
    · rcases p with _ | p <;> rcases q with _ | q <;> simp_all [subFields]
    · rcases p with _ | _ | p <;> rcases q with _ | _ | q <;> simp_all [twoFields] <;> subst hf <;> subst hg <;> simp_all
    · simp at hf
  attrs := by
    intro i p q f g o t o' t' hf hg hk hk' hn
    simp only [env] at hf hg
    split at hf
    · rcases p with _ | _ | _ | _ | _ | p <;> rcases q with _ | _ | _ | _ | _ | q <;> simp_all [recFields] <;> subst hf <;>
        subst hg <;> simp_all [DName.expanded, dn, du]
    · rcases p with _ | p <;> rcases q with _ | q <;> simp_all [subFields]
    · rcases p with _ | _ | p <;> rcases q with _ | _ | q <;> simp_all [twoFields] <;> subst hf <;> subst hg <;> simp_all
    · simp at hf
  noText := by
    intro i f t hf hk
    simp only [env] at hf
    split at hf
    · simp only [recFields, List.mem_cons, List.not_mem_nil, or_false] at hf
      rcases hf with rfl | rfl | rfl | rfl | rfl <;> simp at hk
    · simp only [subFields, List.mem_cons, List.not_mem_nil, or_false] at hf
      subst hf; simp at hk
    · simp only [twoFields, List.mem_cons, List.not_mem_nil, or_false] at hf
      rcases hf with rfl | rfl <;> simp at hk
    · simp at hf
  variants := by
    intro i p q v w hv hw hn
    simp only [env] at hv hw
    split at hv
    · rcases p with _ | _ | _ | p <;> rcases q with _ | _ | _ | q <;> simp_all [choice] <;> subst hv <;> subst hw <;>
        simp_all [DName.expanded, dn]
    · rcases p with _ | _ | p <;> rcases q with _ | _ | q <;> simp_all [other] <;> subst hv <;> subst hw <;>
        simp_all [DName.expanded, dn]
    · simp at hv
  noneFirst := by
    intro i d hd e he h1 h2
    simp only [env, List.mem_map] at he
    obtain ⟨v, hv, rfl⟩ := he
    split at hv
    · simp only [choice, List.mem_cons, List.not_mem_nil, or_false] at hv
      rcases hv with rfl | rfl | rfl <;> simp [dn] at h2
    · simp only [other, List.mem_cons, List.not_mem_nil, or_false] at hv
      rcases hv with rfl | rfl <;> simp [dn] at h2
    · simp at hv
  noSkip := by
    intro i v hv
    simp only [env] at hv
    split at hv
    · simp only [choice, List.mem_cons, List.not_mem_nil, or_false] at hv
      rcases hv with rfl | rfl | rfl <;> rfl
    · simp only [other, List.mem_cons, List.not_mem_nil, or_false] at hv
      rcases hv with rfl | rfl <;> rfl
    · simp at hv

def qp (pfx l : String) : QName := { loc := l, ns := some "urn:u", pfx := some pfx }

/-- An element with text. -/
def leaf (n : QName) (s : String) (rest : Forest) : Forest := .elem n [] [] (p 1) (.chars s false (p 2) .nil) (p 3) rest

/-- An empty element. -/
def empt (n : QName) (rest : Forest) : Forest := .elem n [] [] (p 1) .nil (p 3) rest

def docOf (attrs : List XAttr) (f : Forest) : Doc :=
  { startPos := p0, prolog := [], root := Elem.mk (q "r") attrs [] (p 2) f (p 15), epilog := [], eofPos := p 17,
    epilogOk := by simp }

/-- `<r id="7"><tag>1</tag><u:title>T</u:title><zzz/><c>x</c><tag>2</tag><c>y</c></r>` -/
def recDoc : Doc := docOf [{ name := q "id", value := "7" }, { name := q "unknown", value := "8" }]
  (leaf (q "tag") "1" (leaf (qp "u" "title") "T" (empt (q "zzz") (leaf (q "c") "x" (leaf (q "tag") "2" (leaf (q "c") "y" .nil))))))

def recVal : Val := .strct [.text (.str "T"), .opt none, .vec [.text (.str "1"), .text (.str "2")], .text (.str "7"),
  .enm 2 (some (.vec [.text (.str "x"), .text (.str "y")]))]

theorem recDoc_read : readTy true env (.strct 0) recDoc.input = .ok (.ok recVal) := rfl

end Ex

/-! ## The meaning of derived deserialization -/

theorem readTy_doc (dbg : Bool) (env : Env) (ty : Ty) (d : Doc) :
    readTy dbg env ty d.input = readDoc (derivedVisitor env) (fun _ => deserTy env ty) d :=
  read_spec dbg _ _ (.inr ⟨derived_noSwallow env, deserTy_deserNoSwallow env ty⟩) d

/-- **C18**, **C19**, **C23** (all field shapes at once). Reading a document as a derived type succeeds
exactly when its root element has a value according to the declarations, and gives that value.
`Spec/Derive.lean` says what the value is. -/
theorem C18_value (dbg : Bool) (env : Env) (hok : EnvOk env) (ty : Ty) (d : Doc) (v : Val) :
    readTy dbg env ty d.input = .ok (.ok v) ↔ bodyValue env (d.root.body env) ty = some v := by
  rw [readTy_doc]
  exact readDoc_value env hok ty d v

example : EnvOk Ex.env ∧ readTy true Ex.env (.strct 0) Ex.recDoc.input = .ok (.ok Ex.recVal) := ⟨Ex.env_ok, Ex.recDoc_read⟩

/-- **C18**, **C19**, **C23**, errors. If reading fails, the error is about one of the defects that the
declarations allow to be there, and its stack leads to the element concerned. -/
theorem C18_error (dbg : Bool) (env : Env) (hok : EnvOk env) (ty : Ty) (d : Doc) (E : Error)
    (h : readTy dbg env ty d.input = .ok (.error E)) :
    ∃ rel, E.stack = { name := d.root.name, pos := d.root.pos } :: rel ∧ bodyBad env (d.root.body env) ty rel E.kind := by
  rw [readTy_doc] at h
  rcases readDoc_derived env hok ty d with ⟨v, h1, -⟩ | ⟨E', h1, h2⟩
  · rw [h1] at h; cases h
  · rw [h1] at h; cases h; exact h2

/-- A derived type and a document never make the reader panic; what is no value is an error. -/
theorem readTy_none (dbg : Bool) (env : Env) (hok : EnvOk env) (ty : Ty) (d : Doc)
    (h : bodyValue env (d.root.body env) ty = none) : ∃ E, readTy dbg env ty d.input = .ok (.error E) := by
  rw [readTy_doc]
  rcases readDoc_derived env hok ty d with ⟨v, -, h2⟩ | ⟨E', h1, -⟩
  · rw [h] at h2; simp at h2
  · exact ⟨E', h1⟩

theorem readTy_struct (dbg : Bool) (env : Env) (hok : EnvOk env) (i : Nat) (d : Doc) (v : Val)
    (h : readTy dbg env (.strct i) d.input = .ok (.ok v)) :
    ∃ vs, v = .strct vs ∧ fieldsValue env (env.strct i).fields (d.root.body env) [] (env.strct i).fields = some vs := by
  rw [C18_value dbg env hok] at h
  obtain ⟨vs, h1, h2⟩ := Option.map_eq_some_iff.mp h
  exact ⟨vs, h2.symm, h1⟩

theorem field_split {l : List Field} {p : Nat} {f : Field} (h : l[p]? = some f) : l = l.take p ++ f :: l.drop (p + 1) := by
  obtain ⟨hlt, hge⟩ := List.getElem?_eq_some_iff.mp h
  rw [← hge]
  simp

theorem readTy_field (dbg : Bool) (env : Env) (hok : EnvOk env) (i : Nat) (d : Doc) (vs : List Val)
    (h : readTy dbg env (.strct i) d.input = .ok (.ok (.strct vs))) (p : Nat) (f : Field)
    (hf : (env.strct i).fields[p]? = some f) :
    ∃ w, vs[p]? = some w ∧
      fieldValue env (env.strct i).fields (d.root.body env) (flatTypes ((env.strct i).fields.take p)) f = some w := by
  obtain ⟨vs', h1, h2⟩ := readTy_struct dbg env hok i d _ h
  simp only [Val.strct.injEq] at h1
  subst h1
  have hlt : p < (env.strct i).fields.length := (List.getElem?_eq_some_iff.mp hf).1
  have hlen : ((env.strct i).fields.take p).length = p := by
    rw [List.length_take]
    omega
  have h3 : fieldsValue env (env.strct i).fields (d.root.body env) []
      ((env.strct i).fields.take p ++ f :: (env.strct i).fields.drop (p + 1)) = some vs := by
    rw [← field_split hf]; exact h2
  have := fieldsValue_get env _ _ _ _ _ _ _ h3
  rw [hlen, List.nil_append] at this
  obtain ⟨h4, h5⟩ := this
  refine ⟨vs[p], by simp, ?_⟩
  rw [h4]
  simp

/-- No derived struct is read from a document in which a field has no value. -/
theorem readTy_field_none (dbg : Bool) (env : Env) (hok : EnvOk env) (i : Nat) (d : Doc) (p : Nat) (f : Field)
    (hf : (env.strct i).fields[p]? = some f)
    (h : fieldValue env (env.strct i).fields (d.root.body env) (flatTypes ((env.strct i).fields.take p)) f = none) :
    ∃ E, readTy dbg env (.strct i) d.input = .ok (.error E) := by
  apply readTy_none dbg env hok
  simp only [bodyValue, structValue]
  have := fieldsValue_none env (env.strct i).fields (d.root.body env) [] ((env.strct i).fields.take p) f
    ((env.strct i).fields.drop (p + 1)) (by simpa using h)
  rw [← field_split hf] at this
  rw [this]
  rfl

/-! ## C18 -/

/-- The values of an element field that fit its children. -/
def Spec.Fits (env : Env) (s : Slot) (default : Option Val) (children : List Elem) (w : Val) : Prop :=
  match s.card with
  | .one => (∃ x, children = [x] ∧ bodyValue env (x.body env) s.ty = some w) ∨ (children = [] ∧ default = some w)
  | .opt => (∃ x y, children = [x] ∧ bodyValue env (x.body env) s.ty = some y ∧ w = .opt (some y)) ∨
      (children = [] ∧ w = default.getD (.opt none))
  | .many => (children = [] ∧ w = default.getD (.vec [])) ∨
      (children ≠ [] ∧ ∃ l, w = .vec l ∧ children.map (fun x => bodyValue env (x.body env) s.ty) = l.map some)

theorem allAs_map (ty : Ty) (ks : List Kid) (l : List Val) : allAs ty ks = some l ↔ ks.map (fun k => k.as ty) = l.map some := by
  induction ks generalizing l with
  | nil => cases l <;> simp [allAs]
  | cons k ks ih =>
    simp only [allAs]
    cases l with
    | nil => split <;> simp
    | cons v l =>
      simp only [List.map_cons, List.cons.injEq, ← ih]
      split
      · rename_i a b h1 h2
        simp [h1, h2]
      · rename_i h
        constructor
        · intro hh; simp at hh
        · rintro ⟨h1, h2⟩
          exact absurd h2 (h v l h1)

theorem slotValue_fits (env : Env) (s : Slot) (default : Option Val) (l : List Elem) (w : Val) :
    slotValue s (default.or (slotAbsent s)) (l.map (Elem.kid env)) = some w ↔ Fits env s default l w := by
  unfold Fits
  cases l with
  | nil =>
    simp only [List.map_nil, slotValue, slotAbsent]
    cases s.card <;> cases default <;> simp <;> exact eq_comm
  | cons x l =>
    simp only [List.map_cons, slotValue]
    cases s.card with
    | one =>
      cases l with
      | nil => simp [Elem.kid]
      | cons y l => simp
    | opt =>
      cases l with
      | nil =>
        cases hb : bodyValue env (x.body env) s.ty <;> simp [Elem.kid, hb, eq_comm]
      | cons y l => simp
    | many =>
      simp only [Option.map_eq_some_iff]
      constructor
      · rintro ⟨vs, h1, h2⟩
        rw [← List.map_cons, allAs_map, List.map_map] at h1
        exact .inr ⟨by simp, vs, h2.symm, h1⟩
      · rintro (⟨h, -⟩ | ⟨-, vs, h1, h2⟩)
        · simp at h
        · refine ⟨vs, ?_, h1.symm⟩
          rw [← List.map_cons, allAs_map, List.map_map]
          exact h2

/-- **C18.** Every element field of a struct that was read holds what its cardinality says about the
children with its name: a plain field the only child (or, if there is none, the default), an `Option` field
the only child or `None`, a `Vec` field all of them in document order. -/
theorem C18_element_field (dbg : Bool) (env : Env) (hok : EnvOk env) (i : Nat) (d : Doc) (vs : List Val)
    (h : readTy dbg env (.strct i) d.input = .ok (.ok (.strct vs))) (p : Nat) (f : Field) (s : Slot)
    (hf : (env.strct i).fields[p]? = some f) (hk : f.kind = .element s) :
    ∃ w, vs[p]? = some w ∧ Fits env s f.default (d.root.children.childrenNamed f.name.expanded) w := by
  obtain ⟨w, h1, h2⟩ := readTy_field dbg env hok i d vs h p f hf
  refine ⟨w, h1, ?_⟩
  simp only [fieldValue, hk, Elem.body, named_children] at h2
  exact (slotValue_fits ..).mp h2

example : ∃ w, Fits Ex.env { card := .many, ty := .text .string } none
    (Ex.recDoc.root.children.childrenNamed { ns := "", loc := "tag" }) w :=
  ⟨.vec [.text (.str "1"), .text (.str "2")], .inr ⟨by simp [Forest.childrenNamed, Ex.recDoc, Ex.docOf, Ex.leaf, Ex.empt, Forest.children, Ex.q, Ex.qp, QName.expanded], _, rfl, rfl⟩⟩

/-- **C18**, the other direction: if no value fits some element field, reading fails. -/
theorem C18_unfit_rejected (dbg : Bool) (env : Env) (hok : EnvOk env) (i : Nat) (d : Doc) (p : Nat) (f : Field) (s : Slot)
    (hf : (env.strct i).fields[p]? = some f) (hk : f.kind = .element s)
    (h : ∀ w, ¬ Fits env s f.default (d.root.children.childrenNamed f.name.expanded) w) :
    ∃ E, readTy dbg env (.strct i) d.input = .ok (.error E) := by
  apply readTy_field_none dbg env hok i d p f hf
  simp only [fieldValue, hk, Elem.body, named_children]
  cases hv : slotValue s (f.default.or (slotAbsent s)) ((d.root.children.childrenNamed f.name.expanded).map (Elem.kid env)) with
  | none => rfl
  | some w => exact absurd ((slotValue_fits ..).mp hv) (h w)

/-- Two children for a field that takes one; no child for a required field. -/
example (d : Doc) (h : 2 ≤ (d.root.children.childrenNamed { ns := "urn:u", loc := "title" }).length) :
    ∃ E, readTy true Ex.env (.strct 0) d.input = .ok (.error E) := by
  refine C18_unfit_rejected true Ex.env Ex.env_ok 0 d 0 _ Ex.str rfl rfl ?_
  rintro w (⟨x, h1, -⟩ | ⟨h1, -⟩)
  · rw [show (Ex.du "title").expanded = { ns := "urn:u", loc := "title" } from rfl] at h1
    rw [h1] at h; simp at h
  · rw [show (Ex.du "title").expanded = { ns := "urn:u", loc := "title" } from rfl] at h1
    rw [h1] at h; simp at h

/-- **C18**, errors: a duplicate-element error is raised only for the second child of an element field that takes
one (or inside a child, or in a flattened enum), and a missing-element error only for a required field without
children and default.  Here for structs without flattened fields, at the struct's own level. -/
theorem C18_duplicate_missing (dbg : Bool) (env : Env) (hok : EnvOk env) (i : Nat) (hflat : flatTypes (env.strct i).fields = [])
    (d : Doc) (E : Error) (h : readTy dbg env (.strct i) d.input = .ok (.error E)) :
    (∀ n x, E.kind = .deserializer (.duplicateElement n) → E.stack = [{ name := d.root.name, pos := d.root.pos }, x] →
      (∃ f ∈ (env.strct i).fields, ∃ s k0 k ks, f.kind = .element s ∧ s.card ≠ .many ∧ f.name.expanded = n ∧
        d.root.children.childrenNamed n = k0 :: k :: ks ∧ x = { name := k.name, pos := k.pos }) ∨
      ∃ k ∈ d.root.children.children, x = { name := k.name, pos := k.pos } ∧
        ∃ ty, bodyBad env (k.body env) ty [] E.kind) ∧
    (∀ n, E.kind = .deserializer (.missingElement n) → E.stack = [{ name := d.root.name, pos := d.root.pos }] →
      ∃ f ∈ (env.strct i).fields, ∃ s, f.kind = .element s ∧ s.card = .one ∧ f.default = none ∧ f.name.expanded = n ∧
        d.root.children.childrenNamed n = []) := by
  obtain ⟨rel, h1, pre, f, post, h2, h3⟩ := C18_error dbg env hok (.strct i) d E h
  have hmem : f ∈ (env.strct i).fields := by rw [h2]; simp
  constructor
  · intro n x hkind hstack
    rw [h1] at hstack
    simp only [List.cons.injEq, true_and] at hstack
    subst hstack
    rcases h3 with h3 | h3
    · unfold fieldBad at h3
      split at h3
      · rename_i s hk
        simp only [Elem.body, named_children] at h3
        rcases h3 with ⟨k, h4, rel', h5, h6⟩ | ⟨h4, k0, k, ks', h5, h6, h7⟩
        · right
          obtain ⟨e, he, rfl⟩ := List.mem_map.mp h4
          simp only [List.cons.injEq] at h5
          refine ⟨e, (List.mem_filter.mp he).1, h5.1, s.ty, ?_⟩
          rw [← h5.2] at h6
          exact h6
        · left
          rw [h7] at hkind
          simp only [ErrKind.deserializer.injEq, DErr.duplicateElement.injEq] at hkind
          obtain ⟨l1, l2, h8, h9, h10⟩ := List.map_eq_cons_iff.mp h5
          obtain ⟨l3, l4, h11, h12, h13⟩ := List.map_eq_cons_iff.mp h10
          subst h9 h12
          have hname : f.name.expanded = n := by
            rw [← hkind]
            have : l3 ∈ d.root.children.childrenNamed f.name.expanded := by rw [h8, h11]; simp
            have h14 : l3.name.expanded = f.name.expanded := by simpa using (List.mem_filter.mp this).2
            exact h14.symm
          refine ⟨f, hmem, s, l1, l3, l4, hk, h4, hname, ?_, ?_⟩
          · rw [← hname, h8, h11]
          · simp only [List.cons.injEq, and_true] at h6
            exact h6
      · obtain ⟨h4, -⟩ := h3; simp at h4
      · rename_i e hk
        exfalso
        rw [h2, flatTypes_append] at hflat
        simp [flatTypes, hk] at hflat
      · exact h3.elim
    · unfold fieldMissing at h3
      split at h3
      · obtain ⟨-, -, -, h4, -⟩ := h3; simp at h4
      · obtain ⟨-, -, -, h4, -⟩ := h3; simp at h4
      · obtain ⟨-, h4, -⟩ := h3; simp at h4
      · exact h3.elim
  · intro n hkind hstack
    rw [h1] at hstack
    simp only [List.cons.injEq, true_and] at hstack
    subst hstack
    rcases h3 with h3 | h3
    · unfold fieldBad at h3
      split at h3
      · rcases h3 with ⟨k, h4, rel', h5, h6⟩ | ⟨h4, k0, k, ks', h5, h6, h7⟩
        · simp at h5
        · simp at h6
      · obtain ⟨-, ⟨a, -, e, -, h4⟩ | ⟨-, h4⟩⟩ := h3
        · rw [h4] at hkind; simp at hkind
        · rw [h4] at hkind; simp at hkind
      · obtain ⟨j, k, rest, v, -, -, ⟨s, -, h4⟩ | ⟨c, -, -, h4, -⟩⟩ := h3
        · rcases h4 with ⟨k, h4, rel', h5, h6⟩ | ⟨h4, k0, k, ks', h5, h6, h7⟩
          · simp at h5
          · simp at h6
        · simp at h4
      · exact h3.elim
    · unfold fieldMissing at h3
      split at h3
      · rename_i s hk
        obtain ⟨h4, h5, h6, -, h7⟩ := h3
        rw [h7] at hkind
        simp only [ErrKind.deserializer.injEq, DErr.missingElement.injEq] at hkind
        subst hkind
        simp only [Elem.body, named_children, List.map_eq_nil_iff] at h4
        exact ⟨f, hmem, s, hk, h6, h5, rfl, h4⟩
      · obtain ⟨-, -, -, -, h4⟩ := h3; rw [h4] at hkind; simp at hkind
      · obtain ⟨-, -, h4⟩ := h3; rw [h4] at hkind; simp at hkind
      · exact h3.elim

/-- A document with two `<n>`: the error is about the second. -/
example : flatTypes (Ex.env.strct 1).fields = [] ∧
    ∃ E, readTy true Ex.env (.strct 1) (Ex.docOf [] (Ex.leaf (Ex.q "n") "true" (Ex.leaf (Ex.q "n") "false" .nil))).input =
      .ok (.error E) ∧ E.kind = .deserializer (.duplicateElement { ns := "", loc := "n" }) := ⟨rfl, _, rfl, rfl⟩

/-- All fields but the `p`-th have a value. -/
def Spec.OthersFine (env : Env) (i : Nat) (d : Doc) (p : Nat) : Prop :=
  ∀ (q : Nat) (g : Field), q ≠ p → (env.strct i).fields[q]? = some g →
    ∃ w, fieldValue env (env.strct i).fields (d.root.body env) (flatTypes ((env.strct i).fields.take q)) g = some w

/-- If only one field is wrong, the error is about it. -/
theorem readTy_only_defect (dbg : Bool) (env : Env) (hok : EnvOk env) (i : Nat) (d : Doc) (p : Nat) (f : Field)
    (hf : (env.strct i).fields[p]? = some f) (ho : OthersFine env i d p) (E : Error)
    (h : readTy dbg env (.strct i) d.input = .ok (.error E)) :
    ∃ rel, E.stack = { name := d.root.name, pos := d.root.pos } :: rel ∧
      (fieldBad env (env.strct i).fields (d.root.body env) (flatTypes ((env.strct i).fields.take p)) f rel E.kind ∨
       fieldMissing env (env.strct i).fields (d.root.body env) (flatTypes ((env.strct i).fields.take p)) f rel E.kind) := by
  obtain ⟨rel, h1, pre, g, post, h2, h3⟩ := C18_error dbg env hok (.strct i) d E h
  refine ⟨rel, h1, ?_⟩
  have hg : (env.strct i).fields[pre.length]? = some g := by rw [h2]; simp
  have hpre : (env.strct i).fields.take pre.length = pre := by rw [h2]; simp
  by_cases hp : pre.length = p
  · subst hp
    rw [hg] at hf
    simp only [Option.some.injEq] at hf
    subst hf
    rw [hpre]
    exact h3
  · exfalso
    obtain ⟨w, hw⟩ := ho pre.length g hp hg
    rw [hpre, fieldBad_none _ _ _ _ _ _ _ (kids_bad_none env d.root.children) h3] at hw
    simp at hw

/-- **C18**, the error itself: no child for a required field without default, everything else in order. -/
theorem C18_missing_error (dbg : Bool) (env : Env) (hok : EnvOk env) (i : Nat) (d : Doc) (p : Nat) (f : Field) (s : Slot)
    (hf : (env.strct i).fields[p]? = some f) (hk : f.kind = .element s) (ho : OthersFine env i d p)
    (hone : s.card = .one) (hd : f.default = none) (h : d.root.children.childrenNamed f.name.expanded = []) :
    ∃ E, readTy dbg env (.strct i) d.input = .ok (.error E) ∧ E.kind = .deserializer (.missingElement f.name.expanded) ∧
      E.stack = [{ name := d.root.name, pos := d.root.pos }] := by
  obtain ⟨E, hE⟩ := C18_unfit_rejected dbg env hok i d p f s hf hk (by
    intro w hw
    simp [Fits, hone, h, hd] at hw)
  refine ⟨E, hE, ?_⟩
  obtain ⟨rel, h1, h3⟩ := readTy_only_defect dbg env hok i d p f hf ho E hE
  simp only [fieldBad, fieldMissing, hk, Elem.body, named_children, h, List.map_nil] at h3
  rcases h3 with (⟨k, h4, -⟩ | ⟨-, _, _, _, h4, -⟩) | ⟨-, -, -, h4, h5⟩
  · simp at h4
  · simp at h4
  · exact ⟨h5, by rw [h1, h4]⟩

/-- **C18**, the error itself: two or more children for a field that takes one, all of them readable, everything else
in order.  The error is reported at the second child. -/
theorem C18_duplicate_error (dbg : Bool) (env : Env) (hok : EnvOk env) (i : Nat) (d : Doc) (p : Nat) (f : Field) (s : Slot)
    (hf : (env.strct i).fields[p]? = some f) (hk : f.kind = .element s) (ho : OthersFine env i d p)
    (hone : s.card ≠ .many) (x y : Elem) (l : List Elem) (h : d.root.children.childrenNamed f.name.expanded = x :: y :: l)
    (hr : ∀ z ∈ x :: y :: l, ∃ w, bodyValue env (z.body env) s.ty = some w) :
    ∃ E, readTy dbg env (.strct i) d.input = .ok (.error E) ∧ E.kind = .deserializer (.duplicateElement f.name.expanded) ∧
      E.stack = [{ name := d.root.name, pos := d.root.pos }, { name := y.name, pos := y.pos }] := by
  obtain ⟨E, hE⟩ := C18_unfit_rejected dbg env hok i d p f s hf hk (by
    intro w hw
    unfold Fits at hw
    cases hc : s.card <;> simp [hc, h] at hw hone)
  refine ⟨E, hE, ?_⟩
  obtain ⟨rel, h1, h3⟩ := readTy_only_defect dbg env hok i d p f hf ho E hE
  simp only [fieldBad, fieldMissing, hk, Elem.body, named_children, h, List.map_cons] at h3
  rcases h3 with (⟨k, h4, rel', h5, h6⟩ | ⟨-, k0, k, ks, h4, h5, h6⟩) | h3
  · exfalso
    rw [← List.map_cons, ← List.map_cons, List.mem_map] at h4
    obtain ⟨z, hz, rfl⟩ := h4
    obtain ⟨w, hw⟩ := hr z hz
    rw [show bodyValue env (z.body env) s.ty = none from bodyBad_none env _ (kids_bad_none env z.children) _ _ _ h6] at hw
    simp at hw
  · simp only [List.cons.injEq] at h4
    obtain ⟨-, rfl, -⟩ := h4
    refine ⟨?_, by rw [h1, h5]; rfl⟩
    have hy : y ∈ d.root.children.childrenNamed f.name.expanded := by rw [h]; simp
    have hy : y.name.expanded = f.name.expanded := by simpa using (List.mem_filter.mp hy).2
    rw [h6, ← hy]
    rfl
  · simp at h3

/-- Two `<n>`. -/
example : OthersFine Ex.env 1 (Ex.docOf [] (Ex.leaf (Ex.q "n") "true" (Ex.leaf (Ex.q "n") "false" .nil))) 0 := by
  intro q g hq hg
  rcases q with _ | q
  · simp at hq
  · simp [Ex.env, Ex.subFields] at hg

/-! ## C19 -/

/-- The values of an attribute field that fit its attributes. -/
def Spec.AttrFits (optional : Bool) (t : TextTy) (default : Option Val) (l : List XAttr) (w : Val) : Prop :=
  (∃ a v, l = [a] ∧ t.parse a.value = .ok v ∧ w = if optional then .opt (some (.text v)) else .text v) ∨
  (l = [] ∧ (default = some w ∨ default = none ∧ optional = true ∧ w = .opt none))

theorem attrValue_fits (o : Bool) (t : TextTy) (default : Option Val) (l : List XAttr) (w : Val) :
    attrValue o t (default.or (attrAbsent o)) l = some w ↔ AttrFits o t default l w := by
  unfold AttrFits
  rcases l with _ | ⟨a, _ | ⟨b, l⟩⟩
  · simp only [attrValue, attrAbsent]
    cases default <;> cases o <;> simp [eq_comm]
  · simp only [attrValue]
    cases h : t.parse a.value with
    | ok v => simp [h, eq_comm]
    | err e => simp [h]
    | fault f => simp [h]
  · simp [attrValue]

/-- **C19.** Every attribute field of a struct that was read holds the value of the one attribute with its
expanded name, or, if there is none, the default or `None`. -/
theorem C19_attribute_field (dbg : Bool) (env : Env) (hok : EnvOk env) (i : Nat) (d : Doc) (vs : List Val)
    (h : readTy dbg env (.strct i) d.input = .ok (.ok (.strct vs))) (p : Nat) (f : Field) (o : Bool) (t : TextTy)
    (hf : (env.strct i).fields[p]? = some f) (hk : f.kind = .attribute o t) :
    ∃ w, vs[p]? = some w ∧ AttrFits o t f.default (d.root.attrs.filter fun a => a.name.expanded == f.name.expanded) w := by
  obtain ⟨w, h1, h2⟩ := readTy_field dbg env hok i d vs h p f hf
  refine ⟨w, h1, ?_⟩
  simp only [fieldValue, hk, Elem.body] at h2
  exact (attrValue_fits ..).mp h2

/-- **C19**, the other direction: a missing required attribute, a repeated attribute or an attribute that does not
parse make reading fail. -/
theorem C19_unfit_rejected (dbg : Bool) (env : Env) (hok : EnvOk env) (i : Nat) (d : Doc) (p : Nat) (f : Field) (o : Bool)
    (t : TextTy) (hf : (env.strct i).fields[p]? = some f) (hk : f.kind = .attribute o t)
    (h : ∀ w, ¬ AttrFits o t f.default (d.root.attrs.filter fun a => a.name.expanded == f.name.expanded) w) :
    ∃ E, readTy dbg env (.strct i) d.input = .ok (.error E) := by
  apply readTy_field_none dbg env hok i d p f hf
  simp only [fieldValue, hk, Elem.body]
  cases hv : attrValue o t (f.default.or (attrAbsent o)) (attrsNamed f.name.expanded d.root.attrs) with
  | none => rfl
  | some w => exact absurd ((attrValue_fits ..).mp hv) (h w)

/-- **C19**, the error itself: a missing required attribute, everything else in order. -/
theorem C19_missing_error (dbg : Bool) (env : Env) (hok : EnvOk env) (i : Nat) (d : Doc) (p : Nat) (f : Field) (t : TextTy)
    (hf : (env.strct i).fields[p]? = some f) (hk : f.kind = .attribute false t) (ho : OthersFine env i d p) (hd : f.default = none)
    (h : ∀ a ∈ d.root.attrs, a.name.expanded ≠ f.name.expanded) :
    ∃ E, readTy dbg env (.strct i) d.input = .ok (.error E) ∧ E.kind = .deserializer (.missingAttribute f.name.expanded) ∧
      E.stack = [{ name := d.root.name, pos := d.root.pos }] := by
  have hnil : attrsNamed f.name.expanded d.root.attrs = [] := by
    simp only [attrsNamed, List.filter_eq_nil_iff]
    intro a ha
    simpa using h a ha
  obtain ⟨E, hE⟩ := C19_unfit_rejected dbg env hok i d p f false t hf hk (by
    intro w hw
    have hnil' : d.root.attrs.filter (fun a => a.name.expanded == f.name.expanded) = [] := hnil
    rw [hnil', hd] at hw
    simp [AttrFits] at hw)
  refine ⟨E, hE, ?_⟩
  obtain ⟨rel, h1, h3⟩ := readTy_only_defect dbg env hok i d p f hf ho E hE
  simp only [fieldBad, fieldMissing, hk, Elem.body, hnil] at h3
  rcases h3 with ⟨-, ⟨a, h4, -⟩ | ⟨h4, -⟩⟩ | ⟨-, -, -, h4, h5⟩
  · simp at h4
  · simp at h4
  · exact ⟨h5, by rw [h1, h4]⟩

/-- **C19**, the error itself: a repeated attribute (a conforming parser reports none, but this code does not rely on
it), everything else in order. -/
theorem C19_duplicate_error (dbg : Bool) (env : Env) (hok : EnvOk env) (i : Nat) (d : Doc) (p : Nat) (f : Field) (o : Bool)
    (t : TextTy) (hf : (env.strct i).fields[p]? = some f) (hk : f.kind = .attribute o t) (ho : OthersFine env i d p)
    (h : 2 ≤ (d.root.attrs.filter fun a => a.name.expanded == f.name.expanded).length)
    (hr : ∀ a ∈ d.root.attrs, a.name.expanded = f.name.expanded → ∃ v, t.parse a.value = .ok v) :
    ∃ E, readTy dbg env (.strct i) d.input = .ok (.error E) ∧ E.kind = .deserializer (.duplicateAttribute f.name.expanded) ∧
      E.stack = [{ name := d.root.name, pos := d.root.pos }] := by
  obtain ⟨E, hE⟩ := C19_unfit_rejected dbg env hok i d p f o t hf hk (by
    rintro w (⟨a, v, h1, -⟩ | ⟨h1, -⟩) <;> rw [h1] at h <;> simp at h)
  refine ⟨E, hE, ?_⟩
  obtain ⟨rel, h1, h3⟩ := readTy_only_defect dbg env hok i d p f hf ho E hE
  simp only [fieldBad, fieldMissing, hk, Elem.body] at h3
  rcases h3 with ⟨h2, ⟨a, h4, e, h5, -⟩ | ⟨-, h4⟩⟩ | ⟨h4, -⟩
  · exfalso
    obtain ⟨v, hv⟩ := hr a (List.mem_filter.mp h4).1 (by simpa using (List.mem_filter.mp h4).2)
    rw [hv] at h5
    simp at h5
  · exact ⟨h4, by rw [h1, h2]⟩
  · rw [attrsNamed] at h4
    rw [h4] at h
    simp at h

/-- The `id` attribute of the example is `7`; without it reading fails. -/
example : AttrFits false .string none (Ex.recDoc.root.attrs.filter fun a => a.name.expanded == { ns := "", loc := "id" })
    (.text (.str "7")) := .inl ⟨_, _, rfl, rfl, rfl⟩

example : ∃ E, readTy true Ex.env (.strct 0) { Ex.recDoc with root := { Ex.recDoc.root with attrs := [] } }.input = .ok (.error E) ∧
    E.kind = .deserializer (.missingAttribute { ns := "", loc := "id" }) := ⟨_, rfl, rfl⟩

/-! ## C17 -/

/-- **C17.** Two documents with the same expanded names, attribute values and text give the same value, or both
fail; prefixes, namespace declarations and positions do not matter. -/
theorem C17_prefix_independent (dbg : Bool) (env : Env) (hok : EnvOk env) (ty : Ty) (d d' : Doc)
    (h : d.root.plain = d'.root.plain) (v : Val) :
    readTy dbg env ty d.input = .ok (.ok v) ↔ readTy dbg env ty d'.input = .ok (.ok v) := by
  rw [C18_value dbg env hok, C18_value dbg env hok]
  have : bodyValue env (d.root.body env) ty = bodyValue env (d'.root.body env) ty := by
    apply bodyValue_congr
    rw [← body_plain env d.root, h, body_plain]
  rw [this]

/-- The same `title` with another prefix, and with a default namespace. -/
example : (Ex.docOf [] (Ex.leaf (Ex.qp "u" "title") "T" .nil)).root.plain =
      (Ex.docOf [] (Ex.leaf (Ex.qp "w" "title") "T" .nil)).root.plain ∧
    (Ex.docOf [] (Ex.leaf (Ex.qp "u" "title") "T" .nil)).root.plain =
      (Ex.docOf [] (.elem { loc := "title", ns := some "urn:u", pfx := none } [] [("", "urn:u")] (Ex.p 5)
        (.chars "T" false (Ex.p 6) .nil) (Ex.p 7) .nil)).root.plain := ⟨rfl, rfl⟩

/-! ## C20 -/

def Spec.Doc.prune (env : Env) (ty : Ty) (d : Doc) : Doc := { d with root := d.root.prune env ty }

/-- **C20.** Removing everything that the type does not declare, at all levels, changes neither whether
reading succeeds nor the value read.  (So two documents that differ only in undeclared content, anywhere, are
read alike.) -/
theorem C20_unknown_ignored (dbg : Bool) (env : Env) (hok : EnvOk env) (ty : Ty) (d : Doc) (v : Val) :
    readTy dbg env ty d.input = .ok (.ok v) ↔ readTy dbg env ty (d.prune env ty).input = .ok (.ok v) := by
  rw [C18_value dbg env hok, C18_value dbg env hok, bodyValue_prune env hok ty d.root]
  rfl

theorem C20_same_known_content (dbg : Bool) (env : Env) (hok : EnvOk env) (ty : Ty) (d d' : Doc)
    (h : d.root.prune env ty = d'.root.prune env ty) (v : Val) :
    readTy dbg env ty d.input = .ok (.ok v) ↔ readTy dbg env ty d'.input = .ok (.ok v) := by
  rw [C20_unknown_ignored dbg env hok, C20_unknown_ignored dbg env hok ty d', C18_value dbg env hok, C18_value dbg env hok]
  simp only [Doc.prune, h]

/-- The undeclared attribute `unknown` and child `zzz` are removed. -/
example : (Ex.recDoc.root.prune Ex.env (.strct 0)).attrs = [{ name := Ex.q "id", value := "7" }] ∧
    (Ex.recDoc.root.prune Ex.env (.strct 0)).children.children.map (fun x => x.name.loc) = ["tag", "title", "c", "tag", "c"] :=
  ⟨rfl, rfl⟩

/-! ## C21 -/

/-- **C21**, for structs with at most one flattened field (with more, see
`C21_two_flattened_counterexample`): the order of the children does not matter as long as children with the
same name keep their order. -/
theorem C21_order_irrelevant_partial (dbg : Bool) (env : Env) (hok : EnvOk env) (i : Nat)
    (hone : (flatTypes (env.strct i).fields).length ≤ 1) (d d' : Doc) (ha : d.root.attrs = d'.root.attrs)
    (h : ∀ n, (d.root.children.childrenNamed n).map Elem.plain = (d'.root.children.childrenNamed n).map Elem.plain) (v : Val) :
    readTy dbg env (.strct i) d.input = .ok (.ok v) ↔ readTy dbg env (.strct i) d'.input = .ok (.ok v) := by
  rw [C18_value dbg env hok, C18_value dbg env hok]
  have : bodyValue env (d.root.body env) (.strct i) = bodyValue env (d'.root.body env) (.strct i) := by
    apply structValue_named env hok _ hone
    · simp only [Elem.body, ha]
    · intro n
      have hh : ∀ l : List Elem, (l.map (Elem.kid env)).map Kid.canon = (l.map Elem.plain).map fun x => (Elem.kid env x).canon := by
        intro l
        simp only [List.map_map]
        apply List.map_congr_left
        intro x _
        exact (kid_plain env x).symm
      simp only [Elem.body, named_children]
      rw [hh, hh, h n]
  rw [this]

/-- `<r id="7"><c>x</c><u:title>T</u:title><c>y</c><zzz/><tag>1</tag><tag>2</tag></r>`: the example in another order. -/
example : (flatTypes (Ex.env.strct 0).fields).length ≤ 1 ∧
    readTy true Ex.env (.strct 0) (Ex.docOf [{ name := Ex.q "id", value := "7" }]
      (Ex.leaf (Ex.q "c") "x" (Ex.leaf (Ex.qp "u" "title") "T" (Ex.leaf (Ex.q "c") "y" (Ex.empt (Ex.q "zzz")
        (Ex.leaf (Ex.q "tag") "1" (Ex.leaf (Ex.q "tag") "2" .nil))))))).input = .ok (.ok Ex.recVal) := ⟨by decide, rfl⟩

/-- With two flattened enums the order does matter (the code loses the second child in one of them):
`<x/><a/>` is read, `<a/><x/>` is an error. -/
theorem C21_two_flattened_counterexample :
    readTy true Ex.env (.strct 2) (Ex.docOf [] (Ex.empt (Ex.q "x") (Ex.empt (Ex.q "a") .nil))).input =
      .ok (.ok (.strct [.enm 0 none, .enm 0 none])) ∧
    ∃ E, readTy true Ex.env (.strct 2) (Ex.docOf [] (Ex.empt (Ex.q "a") (Ex.empt (Ex.q "x") .nil))).input = .ok (.error E) ∧
      E.kind = .deserializer (.cantBeEmpty "Other") := ⟨rfl, _, rfl, rfl⟩

/-! ## C22 -/

/-- **C22.** Whatever the declarations (without text fields, for which the macro gives up) and whatever the parser
reports (a document or not): the generated code never reads uninitialized memory, never overwrites initialized
memory with a plain write, never assumes initialized what is not, and does not panic.  In the model all of these
are faults. -/
theorem C22_memory_safe (dbg : Bool) (env : Env) (hT : ∀ i (f : Field) t, f ∈ (env.strct i).fields → f.kind ≠ .text t)
    (ty : Ty) (i : Input) (h : Conforming i) : ∃ r, readTy dbg env ty i = .ok r :=
  read_totalOn (I := Good env) dbg _ _ (.inr ⟨derived_noSwallow env, deserTy_deserNoSwallow env ty⟩) (derived_total env hT)
    (fun _ => deserTy_total env hT ty) i h

/-- A document cut off in the middle. -/
example : Conforming { items := Ex.recDoc.input.items.take 5, final := .err "unexpected end" (Ex.p 9), finalPos := Ex.p 9 } :=
  ⟨rfl, _, _, rfl⟩

/-- The check is not vacuous: memory that was not written is a fault when assumed initialized, and writing twice is
a fault. -/
example : finalize Ex.env (.enm 0 { present := true, cell := none }) = .error .ub ∧
    writeCell { present := true, cell := some (.vec []) } (.vec []) = .error .ub := ⟨rfl, rfl⟩

/-! ## C23 -/

/-- **C23.** A derived enum is read from content with children for exactly one of its variants; the value is
that variant, with the children of that name as its payload. -/
theorem C23_single_choice (dbg : Bool) (env : Env) (hok : EnvOk env) (i : Nat) (d : Doc) (v : Val) :
    readTy dbg env (.enm i) d.input = .ok (.ok v) ↔ ∃ (j : Nat) (var : Variant), (env.enm i).variants[j]? = some var ∧
      d.root.children.childrenNamed var.name.expanded ≠ [] ∧
      (∀ w ∈ (env.enm i).variants, d.root.children.childrenNamed w.name.expanded ≠ [] →
        w.name.expanded = var.name.expanded) ∧
      match var.slot with
      | none => v = .enm j none
      | some s => ∃ p, Fits env s none (d.root.children.childrenNamed var.name.expanded) p ∧ v = .enm j (some p) := by
  rw [C18_value dbg env hok]
  simp only [bodyValue, enumValue_iff env hok, Elem.body, named_children, ne_eq, List.map_eq_nil_iff]
  constructor
  · rintro ⟨j, var, h1, h2, h3, h4⟩
    refine ⟨j, var, h1, h2, h3, ?_⟩
    split
    · rename_i hs; simpa only [hs] using h4
    · rename_i s hs
      simp only [hs] at h4
      obtain ⟨p, h5, h6⟩ := h4
      refine ⟨p, (slotValue_fits ..).mp ?_, h6⟩
      rw [slotValue_absent _ _ _ (by simpa using h2)]
      exact h5
  · rintro ⟨j, var, h1, h2, h3, h4⟩
    refine ⟨j, var, h1, h2, h3, ?_⟩
    split
    · rename_i hs; simpa only [hs] using h4
    · rename_i s hs
      simp only [hs] at h4
      obtain ⟨p, h5, h6⟩ := h4
      refine ⟨p, ?_, h6⟩
      have := (slotValue_fits ..).mpr h5
      rw [slotValue_absent _ _ _ (by simpa using h2)] at this
      exact this

example := C23_single_choice true Ex.env Ex.env_ok 0 Ex.recDoc

/-- **C23.** No child for any variant: "can't be empty", at the element. -/
theorem C23_empty (dbg : Bool) (env : Env) (hok : EnvOk env) (i : Nat) (d : Doc)
    (h : ∀ v ∈ (env.enm i).variants, d.root.children.childrenNamed v.name.expanded = []) :
    ∃ E, readTy dbg env (.enm i) d.input = .ok (.error E) ∧ E.kind = .deserializer (.cantBeEmpty (env.enm i).ident) ∧
      E.stack = [{ name := d.root.name, pos := d.root.pos }] := by
  have hch : choices (env.enm i) (d.root.body env).kids = [] := by
    rw [choices_nil_iff]
    intro k hk
    cases hv : variantOf (env.enm i) k.name with
    | none => rfl
    | some j =>
      obtain ⟨v, h1, -, h2⟩ := variantOf_some hv
      have h3 := h v (List.mem_of_getElem? h1)
      have h4 : named v.name.expanded (d.root.body env).kids = [] := by
        simp only [Elem.body, named_children, h3, List.map_nil]
      rw [named, List.filter_eq_nil_iff] at h4
      exact absurd (by simpa using h2.symm) (h4 k hk)
  have hnone : bodyValue env (d.root.body env) (.enm i) = none := by
    simp only [bodyValue, enumValue, hch]
  obtain ⟨E, hE⟩ := readTy_none dbg env hok (.enm i) d hnone
  refine ⟨E, hE, ?_⟩
  obtain ⟨rel, h1, ⟨_, _, _, _, h2, -⟩ | ⟨-, h2, h3⟩⟩ := C18_error dbg env hok (.enm i) d E hE
  · rw [hch] at h2; simp at h2
  · exact ⟨h3, by rw [h1, h2]⟩

/-- **C23.** Children for two different variants: an error.  Unless the error is about the content of a child
or a repeated child of the first variant, it names the offending child and the variant chosen before. -/
theorem C23_two_choices (dbg : Bool) (env : Env) (hok : EnvOk env) (i : Nat) (d : Doc) (v w : Variant)
    (hv : v ∈ (env.enm i).variants) (hw : w ∈ (env.enm i).variants) (hne : v.name.expanded ≠ w.name.expanded)
    (h1 : d.root.children.childrenNamed v.name.expanded ≠ []) (h2 : d.root.children.childrenNamed w.name.expanded ≠ []) :
    ∃ E, readTy dbg env (.enm i) d.input = .ok (.error E) ∧ ∃ first ∈ (env.enm i).variants,
      ((∃ k ∈ d.root.children.children, k.name.expanded ≠ first.name.expanded ∧
        E.kind = .deserializer (.unexpectedElement k.name.expanded first.name.expanded) ∧
        E.stack = [{ name := d.root.name, pos := d.root.pos }, { name := k.name, pos := k.pos }]) ∨
       (∃ s rel, first.slot = some s ∧
          slotBad s ((d.root.children.childrenNamed first.name.expanded).map (Elem.kid env)) rel E.kind)) := by
  have hnone : bodyValue env (d.root.body env) (.enm i) = none := by
    cases hb : bodyValue env (d.root.body env) (.enm i) with
    | none => rfl
    | some x =>
      exfalso
      obtain ⟨j, var, -, -, h3, -⟩ := (enumValue_iff env hok i _ x).mp hb
      have e1 := h3 v hv (by simpa [Elem.body, named_children] using h1)
      have e2 := h3 w hw (by simpa [Elem.body, named_children] using h2)
      exact hne (e1.trans e2.symm)
  obtain ⟨E, hE⟩ := readTy_none dbg env hok (.enm i) d hnone
  refine ⟨E, hE, ?_⟩
  have hmem : ∀ c ∈ choices (env.enm i) (d.root.body env).kids, c.2 ∈ (d.root.body env).kids ∧
      variantOf (env.enm i) c.2.name = some c.1 := by
    intro c hc
    obtain ⟨k, h1, h2⟩ := List.mem_filterMap.mp hc
    obtain ⟨i, h3, h4⟩ := Option.map_eq_some_iff.mp h2
    subst h4
    exact ⟨h1, h3⟩
  obtain ⟨rel, h3, ⟨j, k0, rest, first, h4, h5, h6⟩ | ⟨h4, -⟩⟩ := C18_error dbg env hok (.enm i) d E hE
  · refine ⟨first, List.mem_of_getElem? h5, ?_⟩
    rcases h6 with ⟨s, h6, h7⟩ | ⟨c, h6, h7, h8, h9⟩
    · right
      refine ⟨s, rel, h6, ?_⟩
      have hfil : ∀ l : List Kid, ((choices (env.enm i) l).filter fun c => c.1 == j).map Prod.snd = named first.name.expanded l := by
        intro l
        induction l with
        | nil => rfl
        | cons k l ih =>
          rw [show k :: l = [k] ++ l from rfl, choices_append, List.filter_append, List.map_append, ih, named_append]
          congr 1
          cases hk : variantOf (env.enm i) k.name with
          | none =>
            rw [choices_none _ _ hk, named_ne]
            · rfl
            · intro heq
              have := (variantOf_iff env hok i k.name j).mpr ⟨first, h5, heq⟩
              rw [hk] at this
              simp at this
          | some j' =>
            rw [choices_some _ _ hk]
            obtain ⟨w', hw', hn'⟩ := (variantOf_iff env hok i k.name j').mp hk
            by_cases hjj : j' = j
            · subst hjj
              rw [hw'] at h5
              simp only [Option.some.injEq] at h5
              subst h5
              rw [hn', named_eq]
              simp
            · rw [named_ne]
              · simp [hjj]
              · intro heq
                exact hjj (hok.variants i j' j w' first hw' h5 (by rw [hn', heq]))
      have := hfil (d.root.body env).kids
      rw [h4] at this
      simp only [List.filter_cons, beq_self_eq_true, if_true, List.map_cons] at this
      rw [this] at h7
      simpa only [Elem.body, named_children] using h7
    · left
      obtain ⟨hk1, hk2⟩ := hmem c (by rw [h4]; simp [h6])
      simp only [Elem.body, kids_children, List.mem_map] at hk1
      obtain ⟨x, hx1, hx2⟩ := hk1
      refine ⟨x, hx1, ?_, ?_, ?_⟩
      · intro heq
        have hx3 : c.2.name = x.name.expanded := by rw [← hx2]; rfl
        have := (variantOf_iff env hok i c.2.name j).mpr ⟨first, h5, by rw [hx3, heq]⟩
        rw [hk2] at this
        simp only [Option.some.injEq] at this
        exact h7 this
      · rw [h9, ← hx2]
        rfl
      · rw [h3, h8, ← hx2]
        rfl
  · exfalso
    apply h1
    have h7 : choices (env.enm i) (d.root.body env).kids = [] := h4
    rw [choices_nil_iff] at h7
    obtain ⟨p, hp⟩ := List.getElem?_of_mem hv
    simp only [Forest.childrenNamed, List.filter_eq_nil_iff]
    intro x hx hxn
    have hk := h7 (Elem.kid env x) (by simp only [Elem.body, kids_children, List.mem_map]; exact ⟨x, hx, rfl⟩)
    have := (variantOf_iff env hok i (Elem.kid env x).name p).mpr ⟨v, hp, (by simpa using hxn : x.name.expanded = _).symm⟩
    rw [this] at hk
    simp at hk

example :
    readTy true Ex.env (.enm 0) (Ex.docOf [] (Ex.empt (Ex.q "zzz") (Ex.leaf (Ex.q "c") "1" (Ex.leaf (Ex.q "c") "2" .nil)))).input =
      .ok (.ok (.enm 2 (some (.vec [.text (.str "1"), .text (.str "2")])))) ∧
    (∃ E, readTy true Ex.env (.enm 0) (Ex.docOf [] (Ex.empt (Ex.q "zzz") .nil)).input = .ok (.error E) ∧
      E.kind = .deserializer (.cantBeEmpty "Choice")) ∧
    (∃ E, readTy true Ex.env (.enm 0) (Ex.docOf [] (Ex.leaf (Ex.q "c") "1" (Ex.empt (Ex.q "a") .nil))).input = .ok (.error E) ∧
      E.kind = .deserializer (.unexpectedElement { ns := "", loc := "a" } { ns := "", loc := "c" })) :=
  ⟨rfl, ⟨_, rfl, rfl⟩, ⟨_, rfl, rfl⟩⟩

/-! ## C24 -/

/-- **C24.** The children that the struct does not declare itself are offered one by one to the flattened fields, in
declaration order, until one accepts (`Spec.offer`); each flattened field holds the value of what it accepted.
(A field that has accepted something accepts everything afterwards, also what it does not know: see
`C24_swallowed_counterexample`.) -/
theorem C24_offered_in_order (dbg : Bool) (env : Env) (hok : EnvOk env) (i : Nat) (d : Doc) (vs : List Val)
    (h : readTy dbg env (.strct i) d.input = .ok (.ok (.strct vs))) (p : Nat) (f : Field) (e : Nat)
    (hf : (env.strct i).fields[p]? = some f) (hk : f.kind = .flatten e) :
    ∃ w got, vs[p]? = some w ∧
      (offerAll env (env.strct i).fields (kids env d.root.children))[(flatTypes ((env.strct i).fields.take p)).length]? =
        some (e, got) ∧ enumValue (env.enm e) got = some w := by
  obtain ⟨w, h1, h2⟩ := readTy_field dbg env hok i d vs h p f hf
  obtain ⟨got, h3, h4⟩ := offerAll_value env (env.strct i).fields (d.root.body env) _ f _ e (field_split hf) hk
  exact ⟨w, got, h1, h3, by rw [← h4]; exact h2⟩

/-- With one flattened field nothing is lost: it gets every child that the struct does not declare. -/
theorem C24_single_flattened (dbg : Bool) (env : Env) (hok : EnvOk env) (i : Nat) (d : Doc) (vs : List Val)
    (h : readTy dbg env (.strct i) d.input = .ok (.ok (.strct vs))) (p : Nat) (f : Field) (e : Nat)
    (hf : (env.strct i).fields[p]? = some f) (hk : f.kind = .flatten e)
    (hone : flatTypes ((env.strct i).fields.take p) = []) :
    ∃ w, vs[p]? = some w ∧
      enumValue (env.enm e) (strangers (env.strct i).fields (kids env d.root.children)) = some w := by
  obtain ⟨w, h1, h2⟩ := readTy_field dbg env hok i d vs h p f hf
  refine ⟨w, h1, ?_⟩
  simp only [fieldValue, hk, hone, past] at h2
  exact h2

example : offerAll Ex.env Ex.twoFields (kids Ex.env (Ex.empt (Ex.q "x") (Ex.empt (Ex.q "a") .nil))) =
    [(0, kids Ex.env (Ex.empt (Ex.q "a") .nil)), (1, kids Ex.env (Ex.empt (Ex.q "x") .nil))] := rfl

/-- A child that only the second flattened enum declares is swallowed by the first one if that has
accepted something before: `<a/><x/>` fails although every child is declared. -/
theorem C24_swallowed_counterexample :
    variantOf (Ex.env.enm 0) { ns := "", loc := "x" } = none ∧
    offerAll Ex.env Ex.twoFields (kids Ex.env (Ex.empt (Ex.q "a") (Ex.empt (Ex.q "x") .nil))) =
      [(0, kids Ex.env (Ex.empt (Ex.q "a") (Ex.empt (Ex.q "x") .nil))), (1, [])] ∧
    ∃ E, readTy true Ex.env (.strct 2) (Ex.docOf [] (Ex.empt (Ex.q "a") (Ex.empt (Ex.q "x") .nil))).input = .ok (.error E) ∧
      E.kind = .deserializer (.cantBeEmpty "Other") := ⟨rfl, rfl, _, rfl, rfl⟩

end SX
