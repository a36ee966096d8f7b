import Verif.Proof.Errors
import Verif.Proof.ReaderTotal

namespace SX
open Spec

/-! Concrete documents and visitors used to show that hypotheses are met. -/
namespace Ex

def q (l : String) : QName := { loc := l, ns := none, pfx := none }
def p (n : Nat) : Pos := { row := n, col := 0 }
def p0 : Pos := { row := 0, col := 0 }

/-- `<r a="1">t<c><g/></c><!--x--><skip>u<z/></skip><![CDATA[v]]></r>` -/
def doc : Doc :=
  { startPos := p0, prolog := [(.comment "pre", p 1)],
    root := Elem.mk (q "r") [{ name := q "a", value := "1" }] [] (p 2)
      (.chars "t" false (p 3) (.elem (q "c") [] [] (p 4) (.elem (q "g") [] [] (p 5) .nil (p 6) .nil) (p 7)
        (.misc (.comment "x") (p 8) (.elem (q "skip") [] [] (p 9) (.chars "u" false (p 10) (.elem (q "z") [] [] (p 11) .nil (p 12) .nil)) (p 13)
        (.chars "v" true (p 14) .nil))))) (p 15),
    epilog := [(.comment "post", p 16)], eofPos := p 17, epilogOk := by simp [outsideOk] }

/-- Records everything it is given; ignores elements named `skip`; fails on `bad`. -/
def V : Visitor (List String) where
  onAttr v n s := .ok (v ++ ["@" ++ n.loc ++ "=" ++ s], .ok ())
  onChars v s _ := .ok (v ++ [s], .ok ())
  onElem v i :=
    if i.name.loc = "skip" then .done (.ok (v ++ ["skipped"], .ok ()))
    else if i.name.loc = "bad" then .done (.ok (v, .error (.wrap (.user "bad"))))
    else .readTo [] fun sub r =>
      match r with
      | .ok _ => .ok (v ++ ["<" ++ i.name.loc ++ ">"] ++ sub ++ ["</" ++ i.name.loc ++ ">"], .ok ())
      | .error e => .ok (v, .error e)

def D : Deser (List String) (List String) := fun _ => .readTo [] fun sub r =>
  match r with
  | .ok _ => .ok (.ok sub)
  | .error e => .ok (.error e)

theorem V_noSwallow : NoSwallow V := by
  intro v i
  simp only [V]
  split
  · exact trivial
  · split
    · exact trivial
    · intro sub e v' h; cases h

theorem D_noSwallow : DeserNoSwallow D := by intro i sub e a h; cases h

theorem V_total : Total V where
  attr _ _ _ := ⟨_, rfl⟩
  chars _ _ _ := ⟨_, rfl⟩
  elem v i := by
    simp only [V]
    split
    · exact ⟨_, rfl⟩
    · split
      · exact ⟨_, rfl⟩
      · intro sub r
        cases r <;> exact ⟨_, rfl⟩

theorem D_total : DeserTotal D := by
  intro i sub r
  cases r <;> exact ⟨_, rfl⟩

theorem V_propagating : Propagating V where
  attr _ _ _ _ _ := by simp [V]
  elem v i := by
    simp only [V]
    split
    · rintro e ⟨v', h⟩; cases h
    · split
      · rintro e ⟨v', h⟩; cases h
      · exact ⟨fun sub e => ⟨v, rfl⟩, fun sub r e ⟨v', h⟩ => by cases h⟩

theorem D_propagating : DeserPropagating D := fun _ => ⟨fun _ _ => rfl, fun _ _ _ h => by cases h⟩

theorem V_oblivious : Oblivious V where
  chars _ _ _ _ := rfl
  elem v i := by
    simp only [V]
    split
    · exact trivial
    · split
      · exact trivial
      · exact ⟨fun sub e => by simp [eraseV, VErr_erase_erase], fun _ _ _ _ _ => rfl⟩

theorem D_oblivious : DeserOblivious D := fun _ =>
  ⟨fun sub e => by simp [eraseD, VErr_erase_erase], fun _ _ _ _ _ => rfl⟩

end Ex

/-! ## C10 -/

/-- **C10.** In a release build, for every visitor, implementation and document whatsoever (visitors may
drop children, read them partly, swallow errors): reading is a traversal of the element tree. -/
theorem C10_reader_in_sync {σ α : Type} (V : Visitor σ) (D : Deser σ α) (d : Doc) :
    read false V D d.input = readDoc V D d := read_spec false V D (.inl rfl) d

/-- **C10**, debug build: the same as long as errors of child reads are not swallowed. -/
theorem C10_reader_in_sync_debug {σ α : Type} (V : Visitor σ) (D : Deser σ α) (hV : NoSwallow V) (hD : DeserNoSwallow D)
    (d : Doc) : read true V D d.input = readDoc V D d := read_spec true V D (.inr ⟨hV, hD⟩) d

/-- A document with attributes, text, nested and skipped elements, comments and CDATA. -/
example : NoSwallow Ex.V ∧ DeserNoSwallow Ex.D ∧
    read true Ex.V Ex.D Ex.doc.input =
      .ok (.ok ["@a=1", "t", "<c>", "<g>", "</g>", "</c>", "skipped", "v"]) :=
  ⟨Ex.V_noSwallow, Ex.D_noSwallow, rfl⟩

/-! ## C11 -/

/-- **C11.** Whatever the events (well-formed or not), visitor and implementation: `Ok` is returned only if
the parser reported the end of the document. -/
theorem C11_truncated_never_ok {σ α : Type} (dbg : Bool) (V : Visitor σ) (D : Deser σ α) (i : Input) (a : α)
    (h : read dbg V D i = .ok (.ok a)) : i.final = .eof := read_ok_final h

/-- If the parser reports an error anywhere, and nothing faults, the result is `Err`. -/
theorem C11_parser_error_is_error {σ α : Type} (dbg : Bool) (V : Visitor σ) (D : Deser σ α)
    (H : dbg = false ∨ NoSwallow V ∧ DeserNoSwallow D) (T : Total V) (TD : DeserTotal D) (i : Input) (m : String) (p : Pos)
    (hi : Conforming i) (hf : i.final = .err m p) : ∃ e, read dbg V D i = .ok (.error e) := by
  obtain ⟨r, hr⟩ := read_total dbg V D H T TD i hi
  cases r with
  | ok a => have := read_ok_final hr; rw [hf] at this; cases this
  | error e => exact ⟨e, hr⟩

/-- A document cut off inside an element the visitor ignores, and one cut off after the root element. -/
example :
    (let i : Input := { items := [(.startDocument, Ex.p 0), (.startElement (Ex.q "r") [] [], Ex.p 1), (.startElement (Ex.q "skip") [] [], Ex.p 2)], final := .err "eof" (Ex.p 3), finalPos := Ex.p 3 }
     Conforming i ∧ read true Ex.V Ex.D i =
      .ok (.error { kind := .xml "eof", stack := [⟨Ex.q "r", Ex.p 1⟩, ⟨Ex.q "skip", Ex.p 2⟩], pos := Ex.p 3 })) ∧
    (let i : Input := { items := [(.startDocument, Ex.p 0), (.startElement (Ex.q "r") [] [], Ex.p 1), (.endElement (Ex.q "r"), Ex.p 2)], final := .err "junk" (Ex.p 3), finalPos := Ex.p 3 }
     Conforming i ∧ read true Ex.V Ex.D i = .ok (.error { kind := .xml "junk", stack := [], pos := Ex.p 3 })) :=
  ⟨⟨⟨_, _, rfl⟩, rfl⟩, ⟨⟨rfl, trivial⟩, rfl⟩⟩

/-! ## C12 -/

/-- **C12.** On every conforming event sequence, complete or cut off, reading ends with a result: no endless
loop, depth underflow, stack access out of range, and (if errors of child reads are not swallowed) no
failing `debug_assert`.  Total: the visitor's own code does not panic. -/
theorem C12_read_total {σ α : Type} (dbg : Bool) (V : Visitor σ) (D : Deser σ α)
    (H : dbg = false ∨ NoSwallow V ∧ DeserNoSwallow D) (T : Total V) (TD : DeserTotal D) (i : Input) (h : Conforming i) :
    ∃ r, read dbg V D i = .ok r := read_total dbg V D H T TD i h

/-- The event sequences of documents are conforming. -/
theorem nested_events (f : Forest) (n : QName) (o : List QName) (l : List (XEvent × Pos)) (final : Final)
    (h : Nested (n :: o) l final) : Nested (n :: o) (f.events ++ l) final := by
  induction f generalizing n o l with
  | nil => exact h
  | elem m a ns pos ch ep rest ihc ihr =>
    simp only [Forest.events, List.cons_append, List.append_assoc, Nested]
    exact ihc _ _ _ ⟨rfl, ihr _ _ _ h⟩
  | chars s cd pos rest ih =>
    cases cd <;> simp only [Forest.events, List.cons_append, Nested] <;> exact ih _ _ _ h
  | misc m pos rest ih => exact ih _ _ _ h

theorem C12_documents_conform (d : Doc) : Conforming d.input := by
  unfold Conforming Doc.input
  simp only
  generalize d.prolog = pr
  induction pr with
  | nil =>
    simp only [miscEvents, List.map_nil, List.nil_append, Prolog]
    exact nested_events _ _ _ _ _ ⟨rfl, by unfold Nested; exact trivial⟩
  | cons m pr ih => exact ih

example : Total Ex.V ∧ DeserTotal Ex.D ∧ Conforming Ex.doc.input :=
  ⟨Ex.V_total, Ex.D_total, C12_documents_conform _⟩

namespace Ex
/-- Reads two levels down; fails in the third after its end tag; the first level swallows that. -/
def swallow : Visitor Nat where
  onAttr v _ _ := .ok (v, .ok ())
  onChars v _ _ := .ok (v, .ok ())
  onElem v _ := .readTo (v + 1) fun _ r =>
    match v, r with
    | 0, _ => .ok (v, .ok ())
    | _, .ok _ => .ok (v, .error (.wrap (.user "no")))
    | _, .error e => .ok (v, .error e)

def swallowD : Deser Nat Nat := fun _ => .readTo 0 fun sub r =>
  match r with
  | .ok _ => .ok (.ok sub)
  | .error e => .ok (.error e)

/-- `<r><c><g/></c><d/></r>` -/
def swallowDoc : Doc :=
  { startPos := p0, prolog := [],
    root := Elem.mk (q "r") [] [] (p 1)
      (.elem (q "c") [] [] (p 2) (.elem (q "g") [] [] (p 3) .nil (p 4) .nil) (p 5) (.elem (q "d") [] [] (p 6) .nil (p 7) .nil)) (p 8),
    epilog := [], eofPos := p 9, epilogOk := by simp }
end Ex

/-- The restriction on debug builds is needed: with a visitor that swallows the error of a child read, a
`debug_assert` fires (while the release build is fine). -/
theorem C12_debug_swallow_counterexample : Total Ex.swallow ∧ DeserTotal Ex.swallowD ∧ Conforming Ex.swallowDoc.input ∧
    read true Ex.swallow Ex.swallowD Ex.swallowDoc.input = .error .panic ∧
    read false Ex.swallow Ex.swallowD Ex.swallowDoc.input = .ok (.ok 0) := by
  refine ⟨⟨fun _ _ _ => ⟨_, rfl⟩, fun _ _ _ => ⟨_, rfl⟩, ?_⟩, ?_, C12_documents_conform _, rfl, rfl⟩
  · intro v i sub r
    rcases v with _ | v <;> cases r <;> exact ⟨_, rfl⟩
  · intro i sub r
    cases r <;> exact ⟨_, rfl⟩

/-! ## C13, C14 -/

/-- **C13.** When errors are passed on unchanged, the error returned is one that a visitor (or
implementation, or the text reader) raised somewhere in the document, with the path of elements from the
root to the place as stack, and with its position; `RaisedAtRoot`/`RaisedIn` list the places: text,
attributes, rejected elements, elements rejected after their end, elements inside text. -/
theorem C13_error_context {σ α : Type} (dbg : Bool) (V : Visitor σ) (D : Deser σ α)
    (H : dbg = false ∨ NoSwallow V ∧ DeserNoSwallow D) (P : Propagating V) (PD : DeserPropagating D) (d : Doc) (E : Error)
    (h : read dbg V D d.input = .ok (.error E)) : RaisedAtRoot V D d.root E ∧ IsPath d.root E.stack := by
  rw [read_spec dbg V D H d] at h
  have := readDoc_raised V P D PD d E h
  exact ⟨this, this.path⟩

/-- **C14.** The converse: the first error raised in document order is the one returned, unchanged, whatever
the number of enclosing readers. -/
theorem C14_innermost_error_kept {σ α : Type} (dbg : Bool) (V : Visitor σ) (D : Deser σ α)
    (H : dbg = false ∨ NoSwallow V ∧ DeserNoSwallow D) (P : Propagating V) (PD : DeserPropagating D) (d : Doc) (E : Error)
    (h : RaisedAtRoot V D d.root E) : read dbg V D d.input = .ok (.error E) := by
  rw [read_spec dbg V D H d]
  exact raised_readDoc V P D PD d E h

/-- An error four levels down, after text and attributes. -/
example :
    let d : Doc := { Ex.doc with root := { Ex.doc.root with children := .elem (Ex.q "c") [] [] (Ex.p 4) (.chars "x" false (Ex.p 5) (.elem (Ex.q "bad") [] [] (Ex.p 6) .nil (Ex.p 7) .nil)) (Ex.p 8) .nil } }
    Propagating Ex.V ∧ DeserPropagating Ex.D ∧ read true Ex.V Ex.D d.input =
      .ok (.error { kind := .deserializer (.user "bad"), stack := [⟨Ex.q "r", Ex.p 2⟩, ⟨Ex.q "c", Ex.p 4⟩, ⟨Ex.q "bad", Ex.p 6⟩], pos := Ex.p 6 }) :=
  ⟨Ex.V_propagating, Ex.D_propagating, rfl⟩

/-! ## C15 -/

/-- The implementation for text types before parsing (`de/mod.rs:1067-1072`): `read_string`. -/
def textDeser : Deser Unit String := fun _ => .readString fun r => .ok r

def noVisitor : Visitor Unit where
  onAttr v _ _ := .ok (v, .ok ())
  onChars v _ _ := .ok (v, .ok ())
  onElem v _ := .done (.ok (v, .ok ()))

/-- The runs of character data directly inside, in order. -/
def runs : Forest → List String
  | .nil => []
  | .elem _ _ _ _ _ _ rest => runs rest
  | .chars s _ _ rest => s :: runs rest
  | .misc _ _ rest => runs rest

theorem text_runs (f : Forest) : f.text = String.join (runs f) := by
  induction f with
  | nil => rfl
  | elem n a ns pos ch ep rest _ ih => exact ih
  | chars s cd pos rest ih => rw [Forest.text, ih, runs]; simp
  | misc m pos rest ih => exact ih

/-- **C15.** Reading an element as text gives the concatenation of its runs of character data, whatever the
attributes, comments and so on; a child element makes it an error, reported at the first one. -/
theorem C15_text_concat (dbg : Bool) (d : Doc) :
    read dbg noVisitor textDeser d.input = .ok (match d.root.children.firstElem with
      | none => .ok (String.join (runs d.root.children))
      | some c => .error { kind := .msg (.elementInString c.name), stack := [⟨d.root.name, d.root.pos⟩, c], pos := c.pos }) := by
  rw [read_spec dbg noVisitor textDeser (.inr ⟨fun _ _ => trivial, fun _ e a h => by cases h⟩) d]
  unfold readDoc deser textDeser asText
  simp only [text_runs]
  cases d.root.children.firstElem with
  | none => rfl
  | some c => rfl

/-- **C15**, wherever a visitor reads a child as text. -/
theorem C15_child_text {σ : Type} (V : Visitor σ) (path : List StackElem) (n : QName) (a : List XAttr) (ns : NsMap) (pos ep : Pos)
    (ch rest : Forest) (v v' : σ) (k : Except VErr String → Except Fault (σ × Except VErr Unit))
    (hk : V.onElem v { name := n, ns, depth := path.length + 1 } = .readString k)
    (hc : ch.firstElem = none) (hv : k (.ok (String.join (runs ch))) = .ok (v', .ok ())) :
    content V path (.elem n a ns pos ch ep rest) v = content V path rest v' := by
  conv => lhs; unfold content
  simp [hk, asText, hc, text_runs, hv]

example : read true noVisitor textDeser
    { Ex.doc with root := { Ex.doc.root with children := .chars "a" false (Ex.p 3) (.misc (.comment "c") (Ex.p 4) (.chars "<b>" true (Ex.p 5) (.misc (.whitespace " ") (Ex.p 6) (.chars " d" false (Ex.p 7) .nil)))) } : Doc }.input
    = .ok (.ok "a<b> d") := by rw [C15_text_concat]; rfl

/-! ## C16 -/

/-- **C16.** Two documents that differ only in comments, processing instructions and whitespace events (and,
outside the root, in the prolog and epilog) are read alike by every visitor, errors included, if the other
events have the same positions. -/
theorem C16_misc_invisible {σ α : Type} (dbg : Bool) (V : Visitor σ) (D : Deser σ α)
    (H : dbg = false ∨ NoSwallow V ∧ DeserNoSwallow D) (d d' : Doc) (h : d.root.strip = d'.root.strip) :
    read dbg V D d.input = read dbg V D d'.input := by
  rw [read_spec dbg V D H, read_spec dbg V D H]
  exact readDoc_strip V D d d' h

example : read true Ex.V Ex.D Ex.doc.input = read true Ex.V Ex.D { Ex.doc with prolog := [], epilog := [], epilogOk := by simp }.input :=
  C16_misc_invisible true Ex.V Ex.D (.inr ⟨Ex.V_noSwallow, Ex.D_noSwallow⟩) _ _ rfl

/-- **C16**, also when positions shift, as they do when something is inserted into the text of a document:
for visitors that do not look at positions, the value is the same; errors differ in positions only. -/
theorem C16_misc_and_positions {σ α : Type} (dbg : Bool) (V : Visitor σ) (D : Deser σ α)
    (H : dbg = false ∨ NoSwallow V ∧ DeserNoSwallow D) (O : Oblivious V) (OD : DeserOblivious D) (d d' : Doc)
    (h : d.root.norm = d'.root.norm) :
    eraseRead (read dbg V D d.input) = eraseRead (read dbg V D d'.input) := by
  rw [read_spec dbg V D H, read_spec dbg V D H]
  have key := fun x => readDoc_norm V O D OD x
  let m : Doc := { d with root := d.root.norm }
  rw [key d _ rfl m rfl, key d' _ rfl m h]

/-- In particular: the same value. -/
theorem C16_same_value {σ α : Type} (dbg : Bool) (V : Visitor σ) (D : Deser σ α)
    (H : dbg = false ∨ NoSwallow V ∧ DeserNoSwallow D) (O : Oblivious V) (OD : DeserOblivious D) (d d' : Doc)
    (h : d.root.norm = d'.root.norm) (a : α) (ha : read dbg V D d.input = .ok (.ok a)) :
    read dbg V D d'.input = .ok (.ok a) := by
  have := C16_misc_and_positions dbg V D H O OD d d' h
  rw [ha] at this
  revert this
  cases read dbg V D d'.input with
  | error f => intro this; cases this
  | ok r =>
    cases r with
    | error e => intro this; cases this
    | ok b => intro this; cases this; rfl

example : Oblivious Ex.V ∧ DeserOblivious Ex.D ∧
    (let d' : Doc := { Ex.doc with prolog := [], epilog := [], epilogOk := by simp, root := { Ex.doc.root with pos := Ex.p 99, children := .misc (.whitespace "\n") (Ex.p 33) (.chars "t" false (Ex.p 3) (.elem (Ex.q "c") [] [] (Ex.p 4) (.elem (Ex.q "g") [] [] (Ex.p 5) .nil (Ex.p 6) (.misc (.pi "a" none) (Ex.p 7) .nil)) (Ex.p 7) (.elem (Ex.q "skip") [] [] (Ex.p 9) (.chars "u" false (Ex.p 10) (.elem (Ex.q "z") [] [] (Ex.p 11) .nil (Ex.p 12) .nil)) (Ex.p 13) (.chars "v" true (Ex.p 14) .nil)))) } }
     Ex.doc.root.norm = d'.root.norm ∧ Ex.doc.root ≠ d'.root) :=
  ⟨Ex.V_oblivious, Ex.D_oblivious, rfl, by decide⟩

end SX
