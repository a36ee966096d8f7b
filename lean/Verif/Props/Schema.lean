import Verif.Proof.Schema
import Verif.Props.DeriveSer
import Verif.Props.RoundTrip

/-
C62: derived types and the XML Schema types that the documentation compares them with.
-/
namespace SX
open Spec Spec.Schema

/-! The second example of the documentation (`lib.rs:366-404`), with an optional attribute; `first`: with the choice before
`FixedField`. -/
namespace ExX

def nn (l : String) : DName := { ns := none, loc := l }
def en (l : String) : EName := { ns := "", loc := l }

/-- `<xs:element name="FixedField" />`, as a simple type that allows every text. -/
def fixed : ElemDecl := { name := en "FixedField", min := 1, max := some 1, ty := .simple fun _ => True }
/-- `<xs:element name="ChoiceA" maxOccurs="unbounded" />` -/
def choiceA : ElemDecl := { name := en "ChoiceA", min := 1, max := none, ty := .simple fun _ => True }
def choiceB : ElemDecl := { name := en "ChoiceB", min := 1, max := some 1, ty := .simple fun _ => True }
def use : AttrUse := { name := en "id", required := false, lex := fun _ => True }

def content (first : Bool) : List Particle :=
  if first then [.choice [choiceA, choiceB], .element fixed] else [.element fixed, .choice [choiceA, choiceB]]

def S (first : Bool) : Schemas
  | 0 => { content := content first, attrs := [use] }
  | _ + 1 => { content := [], attrs := [] }

def str (c : Card) : Slot := { card := c, ty := .text .string }
def fixedF : Field := { name := nn "FixedField", kind := .element (str .one), default := none }
def choiceF : Field := { name := nn "choice", kind := .flatten 0, default := none }
def idF : Field := { name := nn "id", kind := .attribute true .string, default := none }
def variants : List Variant :=
  [{ name := nn "ChoiceA", slot := some (str .many), skip := false }, { name := nn "ChoiceB", slot := some (str .one), skip := false }]

def fields (first : Bool) : List Field := if first then [choiceF, idF, fixedF] else [fixedF, idF, choiceF]

def env (first : Bool) : Env where
  strct
    | 0 => { root := nn "Outer", namespaces := [], fields := fields first }
    | _ + 1 => { root := nn "Empty", namespaces := [], fields := [] }
  enm _ := { ident := "Choice", root := nn "Choice", namespaces := [], variants }

def X (i : Nat) : Ty := .strct i

theorem env_ok (b : Bool) : EnvOk (env b) where
  elems := by
    intro i p q f g s s' hf hg hk hk' hn
    rcases i with _ | i
    · cases b <;> rcases p with _ | _ | _ | p <;> rcases q with _ | _ | _ | q <;> simp_all [env, fields] <;> subst hf <;> subst hg <;>
        simp_all [fixedF, choiceF, idF]
    · simp [env] at hf
  attrs := by
    intro i p q f g o t o' t' hf hg hk hk' hn
    rcases i with _ | i
    · cases b <;> rcases p with _ | _ | _ | p <;> rcases q with _ | _ | _ | q <;> simp_all [env, fields] <;> subst hf <;> subst hg <;>
        simp_all [fixedF, choiceF, idF]
    · simp [env] at hf
  noText := by
    intro i f t hf hk
    rcases i with _ | i
    · cases b <;> simp only [env, fields, Bool.false_eq_true, if_false, if_true, List.mem_cons, List.not_mem_nil, or_false] at hf <;>
        rcases hf with rfl | rfl | rfl <;> simp [fixedF, choiceF, idF] at hk
    · simp [env] at hf
  variants := by
    intro i p q v w hv hw hn
    rcases p with _ | _ | p <;> rcases q with _ | _ | q <;> simp_all [env, variants] <;> subst hv <;> subst hw <;>
      simp_all [DName.expanded, nn]
  noneFirst := by
    intro i d hd e he h1 h2
    simp only [env, variants, List.map_cons, List.map_nil, List.mem_cons, List.not_mem_nil, or_false] at he
    rcases he with rfl | rfl <;> simp [nn] at h2
  noSkip := by
    intro i v hv
    simp only [env, variants, List.mem_cons, List.not_mem_nil, or_false] at hv
    rcases hv with rfl | rfl <;> rfl

theorem string_for : TextFor (fun _ => True) .string := fun s _ => ⟨.str s, s, rfl, rfl, trivial⟩

theorem variants_for : Rowwise (VariantFor X) [choiceA, choiceB] variants :=
  .cons ⟨rfl, _, rfl, string_for, fun h => absurd rfl h, Nat.le_refl 1⟩ (.cons ⟨rfl, _, rfl, string_for, fun _ => rfl, Nat.le_refl 1⟩ .nil)

theorem fixed_for (b : Bool) : FieldFor (env b) (S b) X (.element fixed) fixedF :=
  ⟨rfl, _, rfl, string_for, ⟨fun _ => rfl, fun _ _ => Nat.le_refl 1⟩, nofun⟩

theorem choice_for (b : Bool) : FieldFor (env b) (S b) X (.choice [choiceA, choiceB]) choiceF := ⟨0, rfl, variants_for⟩

theorem id_for : AttrFor use idF := ⟨rfl, _, _, rfl, string_for, .inr (.inl rfl), nofun⟩

theorem translates (b : Bool) : Translates (env b) (S b) X where
  types i := by
    rcases i with _ | i
    · cases b
      · exact ⟨.cons (fixed_for _) (.cons (choice_for _) .nil), .cons id_for .nil⟩
      · exact ⟨.cons (choice_for _) (.cons (fixed_for _) .nil), .cons id_for .nil⟩
    · exact ⟨.nil, .nil⟩
  names i := by
    rcases i with _ | i
    · cases b <;> decide
    · exact .nil
  one i := by
    rcases i with _ | i
    · cases b <;> decide
    · exact Nat.zero_le 1

theorem last : ChoicesLast (S false) := by
  intro i
  rcases i with _ | i
  · exact ⟨[.element fixed], [.choice [choiceA, choiceB]], rfl, by simp [isChoice], by simp [isChoice]⟩
  · exact ⟨[], [], rfl, by simp, by simp⟩

theorem declared (b : Bool) : NamesDeclared (env b) where
  mappings := by
    intro ty x hx
    rcases ty with _ | i | i
    · simp [declaredNs] at hx
    · rcases i with _ | i <;> simp [declaredNs, env] at hx
    · simp [declaredNs, env] at hx
  elems := by
    intro i f s hf hk
    rcases i with _ | i
    · cases b <;> simp only [env, fields, Bool.false_eq_true, if_false, if_true, List.mem_cons, List.not_mem_nil, or_false] at hf <;>
        rcases hf with rfl | rfl | rfl <;> exact .inr (.inr rfl)
    · simp [env] at hf
  attrs := by
    intro i f o t hf hk
    rcases i with _ | i
    · cases b <;> simp only [env, fields, Bool.false_eq_true, if_false, if_true, List.mem_cons, List.not_mem_nil, or_false] at hf <;>
        rcases hf with rfl | rfl | rfl <;> exact .inl rfl
    · simp [env] at hf
  variants := by
    intro i w hw _
    simp only [env, variants, List.mem_cons, List.not_mem_nil, or_false] at hw
    rcases hw with rfl | rfl <;> exact .inr (.inr rfl)

theorem noClash (b : Bool) : NoClash (env b) (en "Outer") := by
  left
  intro ty
  rcases ty with _ | i | i
  · rfl
  · rcases i with _ | i
    · cases b <;> rfl
    · rfl
  · rfl

/-- `<Outer id="7"><FixedField>f</FixedField><!-- --><ChoiceA>x</ChoiceA><ChoiceA>y</ChoiceA></Outer>` -/
def doc : Doc := Ex.docOf [{ name := { loc := "id", ns := none, pfx := none }, value := "7" }]
  (Ex.leaf (Ex.q "FixedField") "f" (.misc (.comment " ") ⟨0, 0⟩ (Ex.leaf (Ex.q "ChoiceA") "x" (Ex.leaf (Ex.q "ChoiceA") "y" .nil))))

theorem leaf_valid (b : Bool) (s : String) : Valid (S b) (.simple fun _ => True) [] (.chars s .nil) :=
  .simple ⟨by simp, by simp, by simp, by simp⟩ rfl trivial

theorem doc_valid : DocValid (S false) (.complex 0) doc := by
  refine .complex ⟨by simp [attrsOf, doc, Ex.docOf], ?_, fun _ _ u hu _ => ?_, fun u hu hr => ?_⟩ (by decide) ?_ ?_
  · intro a ha
    simp only [attrsOf, doc, Ex.docOf, List.map_cons, List.map_nil, List.mem_singleton] at ha
    subst ha
    exact .inl ⟨use, by simp [S], rfl⟩
  · simp only [S, List.mem_singleton] at hu
    subst hu
    trivial
  · simp only [S, List.mem_singleton] at hu
    subst hu
    simp [use] at hr
  · exact ⟨[en "FixedField"], [en "ChoiceA", en "ChoiceA"], rfl, ⟨1, ⟨Nat.le_refl 1, fun m hm => by cases hm; exact Nat.le_refl 1⟩, rfl⟩,
      _, [], rfl, ⟨choiceA, by simp, 2, ⟨by decide, nofun⟩, rfl⟩, rfl⟩
  · intro c hc d hd _
    have hdt : d.ty = .simple fun _ => True := by
      simp only [S, content, decls, Bool.false_eq_true, if_false, List.flatMap_cons, List.flatMap_nil, List.mem_append, List.mem_cons,
        List.not_mem_nil, or_false] at hd
      rcases hd with rfl | rfl | rfl <;> rfl
    rw [hdt]
    simp only [doc, Ex.docOf, Ex.leaf, contentOf, children, List.mem_cons, List.not_mem_nil, or_false] at hc
    rcases hc with rfl | rfl | rfl <;> exact leaf_valid false _

def val (first : Bool) : Val :=
  let f : Val := .text (.str "f")
  let c : Val := .enm 0 (some (.vec [.text (.str "x"), .text (.str "y")]))
  .strct (if first then [c, .opt none, f] else [f, .opt (some (.text (.str "7"))), c])

end ExX

/-- C62, reading: a document that is valid by the schema is read by the types for the schema, into a value that conforms to it. -/
theorem C62_read (dbg : Bool) (env : Env) (hok : EnvOk env) (S : Schemas) (X : Nat → Ty) (hX : Translates env S X) (x : XTy) (ty : Ty)
    (hty : TypeFor X x ty) (d : Doc) (hd : DocValid S x d) :
    ∃ v, readTy dbg env ty d.input = .ok (.ok v) ∧ Conforms env S (.type x) ty v := by
  obtain ⟨v, h1, h2⟩ := valid_read hok hX hd d.root rfl rfl ty hty
  exact ⟨v, (C18_value dbg env hok ty d v).mpr h1, h2⟩

example : EnvOk (ExX.env false) ∧ Translates (ExX.env false) (ExX.S false) ExX.X ∧ TypeFor ExX.X (.complex 0) (.strct 0) ∧
    DocValid (ExX.S false) (.complex 0) ExX.doc ∧ readTy true (ExX.env false) (.strct 0) ExX.doc.input = .ok (.ok (ExX.val false)) :=
  ⟨ExX.env_ok _, ExX.translates _, rfl, ExX.doc_valid, rfl⟩

/-- C62, writing: a value that conforms to the schema is written as a valid document, if choices come last.  (The condition on
elements in no namespace is that of C32.) -/
theorem C62_write (dbg : Bool) (sink : Sink) (env : Env) (hok : EnvOk env) (henv : NamesDeclared env) (S : Schemas) (X : Nat → Ty)
    (hX : Translates env S X) (hlast : ChoicesLast S) (x : XTy) (ty : Ty) (hty : TypeFor X x ty) (name : EName)
    (hn : ElemNsOk (urls (declaredNs env ty)) name) (v : Val) (hv : Conforms env S (.type x) ty v) (hpf : RootPlainFree env name ty v) :
    ∃ s r as g, serializeVal dbg sink env name ty v = .ok (s, r) ∧ Valid S x as g ∧
      (r = .ok () → resolveEvents s.out [] = some (.start name as :: (g.events ++ [.stop]))) ∧
      ((∀ out e, sink out e = none) → r = .ok ()) := by
  obtain ⟨h1, -⟩ := conforms_written hok hX hlast hv hty
  obtain ⟨as, g, h2, h3⟩ := h1 name
  obtain ⟨s, r, h4, h5, h6⟩ := C32_document_partial dbg sink env henv (envOk_distinct hok) name ty hn v as g h2 hpf
  exact ⟨s, r, as, g, h4, h3, h5, h6⟩

example : ChoicesLast (ExX.S false) ∧ NamesDeclared (ExX.env false) ∧ NoClash (ExX.env false) (ExX.en "Outer") :=
  ⟨ExX.last, ExX.declared _, ExX.noClash _⟩

/-- C62: from valid documents to valid documents.  What is read from a valid document is written as a valid document. -/
theorem C62_through (dbg dbg' : Bool) (env : Env) (hok : EnvOk env) (henv : NamesDeclared env) (S : Schemas) (X : Nat → Ty)
    (hX : Translates env S X) (hlast : ChoicesLast S) (x : XTy) (ty : Ty) (hty : TypeFor X x ty) (name : EName)
    (hn : ElemNsOk (urls (declaredNs env ty)) name) (hc : NoClash env name) (d : Doc) (hd : DocValid S x d) :
    ∃ v s as g, readTy dbg env ty d.input = .ok (.ok v) ∧ serializeVal dbg' (fun _ _ => none) env name ty v = .ok (s, .ok ()) ∧
      resolveEvents s.out [] = some (.start name as :: (g.events ++ [.stop])) ∧ Valid S x as g := by
  obtain ⟨v, h1, h2⟩ := C62_read dbg env hok S X hX x ty hty d hd
  have hv : HasTy env ty v := (conforms_written hok hX hlast h2 hty).2
  obtain ⟨s, r, as, g, h3, h4, h5, h6⟩ := C62_write dbg' (fun _ _ => none) env hok henv S X hX hlast x ty hty name hn v h2 (rootPlainFree_of hc hv)
  have hr := h6 fun _ _ => rfl
  subst hr
  exact ⟨v, s, as, g, h1, h3, h5 rfl, h4⟩

example := C62_through true true (ExX.env false) (ExX.env_ok _) (ExX.declared _) (ExX.S false) ExX.X (ExX.translates _) ExX.last (.complex 0) (.strct 0) rfl
  (ExX.en "Outer") (.inr (.inr rfl)) (ExX.noClash _) ExX.doc ExX.doc_valid

theorem shows_names {env : Env} {l : List Item} {g : EForest} (h : Shows env l g) : (children g).map Child.name = l.map Item.name := by
  induction h with
  | nil => rfl
  | unit _ ih => simp only [children, List.map_cons, ih]
  | text _ _ ih => simp only [children, List.map_cons, ih]
  | strct _ _ _ ih => simp only [children, List.map_cons, ih]
  | enm _ _ _ ih => simp only [children, List.map_cons, ih]

theorem lang_split {ps qs : List Particle} {w : List EName} (h : Lang (ps ++ qs) w) : ∃ u v, w = u ++ v ∧ Lang ps u ∧ Lang qs v := by
  induction ps generalizing w with
  | nil => exact ⟨[], w, rfl, rfl, h⟩
  | cons p ps ih =>
    obtain ⟨u, v, rfl, h1, h2⟩ := h
    obtain ⟨u', v', rfl, h3, h4⟩ := ih h2
    exact ⟨u ++ u', v', by simp, ⟨u, u', rfl, h1, h3⟩, h4⟩

theorem decls_append (ps qs : List Particle) : decls (ps ++ qs) = decls ps ++ decls qs := by simp [decls, List.flatMap_append]

/-- C62 is false of the code when a choice comes before an element that is there: whatever the value, its document is not valid, as
elements are written before flattened fields (`serialize.rs:50-73`). -/
theorem C62_choice_first_refuted (env : Env) (hok : EnvOk env) (S : Schemas) (X : Nat → Ty) (hX : Translates env S X) (i j : Nat)
    (hij : X i = .strct j) (pre post : List Particle) (ds : List ElemDecl) (d : ElemDecl)
    (hc : (S i).content = pre ++ .choice ds :: post) (hd : .element d ∈ post) (vs : List Val)
    (hv : Conforms env S (.type (.complex i)) (.strct j) (.strct vs)) (p : Nat) (f : Field) (s : Slot) (v : Val)
    (hf : (env.strct j).fields[p]? = some f) (hk : f.kind = .element s) (hn : f.name.expanded = d.name) (hvp : vs[p]? = some v)
    (hne : valuesOf s.card v ≠ []) (name : EName) (as : List (EName × String)) (g : EForest)
    (hr : Represents env name (.strct j) (.strct vs) as g) : ¬ Valid S (.complex i) as g := by
  intro hval
  cases hval with
  | complex ha ht hl hcs =>
  cases hr with
  | strct hch _ =>
  rw [shows_names hch] at hl
  have nd := hX.names i
  have hX' := hX.types i
  rw [hij] at hX'
  obtain ⟨hfr, -⟩ := hX'
  -- the flattened field
  obtain ⟨ff, hff, hffor⟩ := Gen.rowwise_left hfr (.choice ds) (by rw [hc]; simp)
  obtain ⟨e, hke, hrv⟩ := hffor
  obtain ⟨q, hq⟩ := List.getElem?_of_mem (List.mem_filter.mp hff).1
  cases hv with
  | strct len _ _ _ _ flats =>
  have hqlt : q < vs.length := by rw [len]; exact (List.getElem?_eq_some_iff.mp hq).1
  have hvq : vs[q]? = some vs[q] := List.getElem?_eq_getElem hqlt
  have hoo := flats q ff e vs[q] ds hq hvq hke (by rw [hc]; simp)
  -- the names that are written, in two parts
  simp only [structItems, List.map_append] at hl
  have hm1 : d.name ∈ (((env.strct j).fields.zip vs).flatMap fun x =>
      match x.1.kind with
      | .element s => fieldItems s x.1.name.expanded x.2
      | _ => []).map Item.name := by
    obtain ⟨y, hy⟩ := List.exists_mem_of_ne_nil _ hne
    refine List.mem_map.mpr ⟨{ name := f.name.expanded, value := some (s.ty, y) }, List.mem_flatMap.mpr ⟨(f, v), ?_, ?_⟩, hn⟩
    · rw [List.mem_iff_getElem?]
      exact ⟨p, by rw [List.getElem?_zip_eq_some]; exact ⟨hf, hvp⟩⟩
    · simp only [hk]
      exact List.mem_map_of_mem (f := fun x => ({ name := f.name.expanded, value := some (s.ty, x) } : Item)) hy
  have hm2 : ∃ d' ∈ ds, d'.name ∈ (((env.strct j).fields.zip vs).flatMap fun x =>
      match x.1.kind with
      | .flatten e => variantItems (env.enm e) x.2
      | _ => []).map Item.name := by
    generalize hvv : vs[q] = vq at hoo hvq
    cases hoo with
    | @oneOf _ k _ d' w s' p' hd' hw hn' hs' card count items =>
    obtain ⟨d'', hd'', hn'', s'', hs'', -, -, hmin⟩ := Gen.rowwise_right hrv w (List.mem_of_getElem? hw)
    have hdd : d'' = d' := nodup_name (choice_nodup nd (by rw [hc]; simp)) hd'' hd' (by rw [hn'', hn'])
    subst hdd
    have hne' : valuesOf s'.card p' ≠ [] := by
      intro hcon
      have := count.1
      rw [hcon] at this
      simp at this
      omega
    obtain ⟨y, hy⟩ := List.exists_mem_of_ne_nil _ hne'
    refine ⟨d'', hd'', List.mem_map.mpr ⟨{ name := w.name.expanded, value := some (s'.ty, y) }, List.mem_flatMap.mpr ⟨(ff, .enm k (some p')), ?_, ?_⟩, hn''.symm⟩⟩
    · rw [List.mem_iff_getElem?]
      exact ⟨q, by rw [List.getElem?_zip_eq_some]; exact ⟨hq, hvq⟩⟩
    · simp only [hke, variantItems, hw, hok.noSkip e w (List.mem_of_getElem? hw), hs', Bool.false_eq_true, if_false]
      exact List.mem_map_of_mem (f := fun x => ({ name := w.name.expanded, value := some (s'.ty, x) } : Item)) hy
  obtain ⟨d', hd', hm2⟩ := hm2
  rw [show pre ++ .choice ds :: post = (pre ++ [.choice ds]) ++ post by simp] at hc
  rw [hc] at hl nd
  rw [decls_append, List.map_append, List.nodup_append] at nd
  obtain ⟨u1, u2, hu, hl1, hl2⟩ := lang_split hl
  generalize (((env.strct j).fields.zip vs).flatMap _).map Item.name = w1 at hm1 hu
  generalize (((env.strct j).fields.zip vs).flatMap _).map Item.name = w2 at hm2 hu
  have hnot1 : d.name ∉ u1 := by
    rw [← List.count_eq_zero]
    refine lang_other hl1 fun hcon => ?_
    exact nd.2.2 _ hcon _ (List.mem_map_of_mem (element_decls hd)) rfl
  have hnot2 : d'.name ∉ u2 := by
    rw [← List.count_eq_zero]
    refine lang_other hl2 fun hcon => ?_
    exact nd.2.2 d'.name (List.mem_map_of_mem (choice_decls (by simp) hd')) _ hcon rfl
  rcases List.append_eq_append_iff.mp hu with ⟨a, h1, -⟩ | ⟨a, -, h2⟩
  · exact hnot1 (by rw [h1]; exact List.mem_append_left _ hm1)
  · exact hnot2 (by rw [h2]; exact List.mem_append_right _ hm2)

/-- With the choice before `FixedField` (`ExX.S true`): a conforming value that is written. -/
theorem ExX.val_conforms : Conforms (ExX.env true) (ExX.S true) (.type (.complex 0)) (.strct 0) (ExX.val true) := by
  obtain ⟨v, h1, h2⟩ := C62_read true (ExX.env true) (ExX.env_ok _) (ExX.S true) ExX.X (ExX.translates _) (.complex 0) (.strct 0) rfl
    (Ex.docOf [] (Ex.leaf (Ex.q "ChoiceA") "x" (Ex.leaf (Ex.q "ChoiceA") "y" (Ex.leaf (Ex.q "FixedField") "f" .nil)))) (by
      refine .complex ⟨by simp [attrsOf, Ex.docOf], by simp [attrsOf, Ex.docOf], by simp [attrsOf, Ex.docOf], ?_⟩ (by decide) ?_ ?_
      · intro u hu hr
        simp only [ExX.S, List.mem_singleton] at hu
        subst hu
        simp [ExX.use] at hr
      · exact ⟨[ExX.en "ChoiceA", ExX.en "ChoiceA"], [ExX.en "FixedField"], rfl, ⟨ExX.choiceA, by simp, 2, ⟨by decide, nofun⟩, rfl⟩,
          _, [], rfl, ⟨1, ⟨Nat.le_refl 1, fun m hm => by cases hm; exact Nat.le_refl 1⟩, rfl⟩, rfl⟩
      · intro c hc d hd _
        have hdt : d.ty = .simple fun _ => True := by
          simp only [ExX.S, ExX.content, decls, if_true, List.flatMap_cons, List.flatMap_nil, List.mem_append, List.mem_cons,
            List.not_mem_nil, or_false] at hd
          rcases hd with (rfl | rfl) | rfl <;> rfl
        rw [hdt]
        simp only [Ex.docOf, Ex.leaf, contentOf, children, List.mem_cons, List.not_mem_nil, or_false] at hc
        rcases hc with rfl | rfl | rfl <;> exact ExX.leaf_valid true _)
  have h3 : readTy true (ExX.env true) (.strct 0) (Ex.docOf [] (Ex.leaf (Ex.q "ChoiceA") "x" (Ex.leaf (Ex.q "ChoiceA") "y"
    (Ex.leaf (Ex.q "FixedField") "f" .nil)))).input = .ok (.ok (ExX.val true)) := rfl
  rw [h1] at h3
  simp only [Except.ok.injEq] at h3
  rw [← h3]
  exact h2

example : ∃ as g, Represents (ExX.env true) (ExX.en "Outer") (.strct 0) (ExX.val true) as g ∧ ¬ Valid (ExX.S true) (.complex 0) as g := by
  have hr : Represents (ExX.env true) (ExX.en "Outer") (.strct 0) (ExX.val true) []
      (.elem (ExX.en "FixedField") [] (.chars "f" .nil) (.elem (ExX.en "ChoiceA") [] (.chars "x" .nil) (.elem (ExX.en "ChoiceA") []
        (.chars "y" .nil) .nil))) := .strct (.text rfl (.text rfl (.text rfl .nil))) .nil
  exact ⟨_, _, hr, C62_choice_first_refuted (ExX.env true) (ExX.env_ok _) (ExX.S true) ExX.X (ExX.translates _) 0 0 rfl [] [.element ExX.fixed]
    [ExX.choiceA, ExX.choiceB] ExX.fixed rfl (by simp) _ ExX.val_conforms 2 ExX.fixedF (ExX.str .one) _ rfl rfl rfl rfl (by simp [valuesOf, ExX.str])
    _ _ _ hr⟩

end SX
