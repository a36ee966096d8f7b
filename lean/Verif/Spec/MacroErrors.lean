import Verif.Spec.Macro

/-
Which errors the macros are to report, for every declaration: exactly one for each wrong place, in the order of the declaration.  Only the
syntax of declarations and the kinds of errors are taken from the model.
-/
namespace SX.Spec

/-- A report if there is a reason for it. -/
def ReportIf (p : Prop) (e : MErr) (es : List MErr) : Prop := (p ∧ es = [e]) ∨ (¬ p ∧ es = [])

/-- The reports for attributes that are not lists or can't be parsed. -/
def attrErrors (l : List Attr) : List MErr :=
  l.filterMap fun
    | .notList => some .expectedList
    | .invalid => some .invalid
    | _ => none

/-- One report at most for each item, in order; `P` tells what is wrong with an item, given the items before it. -/
inductive ItemErrors (P : List NMeta → NMeta → MErr → Prop) : List NMeta → List NMeta → List MErr → Prop where
  | nil {pre : List NMeta} : ItemErrors P pre [] []
  | fine {pre l : List NMeta} {i : NMeta} {es : List MErr} (h : ∀ e, ¬ P pre i e) (t : ItemErrors P (pre ++ [i]) l es) :
      ItemErrors P pre (i :: l) es
  | wrong {pre l : List NMeta} {i : NMeta} {e : MErr} {es : List MErr} (h : P pre i e) (t : ItemErrors P (pre ++ [i]) l es) :
      ItemErrors P pre (i :: l) (e :: es)

/-- One of some words, or an item with one of some keys. -/
def Known (words keys : List String) (i : NMeta) : Prop := (∃ w ∈ words, i = word w) ∨ ∃ k ∈ keys, ∃ l, i = .nameValue (some k) l

/-- The first mapping of a prefix. -/
def FirstMapped (items : List NMeta) (p u : String) : Prop :=
  ∃ a i b, items = a ++ i :: b ∧ Declares i p u ∧ ∀ u', ¬ Mapped a p u'

/-- A prefix that stands for nothing. -/
def Unresolved (mapped : String → String → Prop) (p : String) : Prop := (∀ u, ¬ mapped p u) ∧ p ≠ "xml" ∧ p ≠ ""

/-! ### Types -/

/-- What is wrong with an item on a type. -/
inductive TypeItemError (pre : List NMeta) : NMeta → MErr → Prop where
  | notUnderstood {i : NMeta} (h : ¬ Known [] ["rename", "prefix", "namespace", "default_namespace"] i) : TypeItemError pre i .notUnderstood
  | notString {k : String} (h : k ∈ ["rename", "namespace", "default_namespace"]) : TypeItemError pre (.nameValue (some k) .other) .notString
  | reassign {i : NMeta} {p u u' : String} (h : FirstMapped pre p u) (hi : Declares i p u') : TypeItemError pre i (.reassign p u u')

/-- What is wrong with the prefix of a type (of several the last one counts). -/
inductive TypePrefixErrors (items : List NMeta) : List MErr → Prop where
  | absent (h : NoneOf "prefix" items) : TypePrefixErrors items []
  | notString (h : LastOf "prefix" items .other) : TypePrefixErrors items [.notString]
  | present {s p : String} {es : List MErr} (h : LastOf "prefix" items (.str s)) (hp : IsTrim s p)
      (hr : ReportIf (Unresolved (Mapped items) p) (.prefixNotFound p) es) : TypePrefixErrors items es

/-- The errors in the attributes of a type. -/
def TypeErrors (attrs : List Attr) (errs : List MErr) : Prop :=
  ∃ es ps, ItemErrors TypeItemError [] (attrItems attrs) es ∧ TypePrefixErrors (attrItems attrs) ps ∧ errs = attrErrors attrs ++ es ++ ps

/-! ### Names of fields and variants -/

/-- The first prefix given. -/
def FirstPrefix (items : List NMeta) (p : String) : Prop :=
  ∃ a s b, items = a ++ kv "prefix" s :: b ∧ IsTrim s p ∧ ∀ s', kv "prefix" s' ∉ a

/-- What is wrong with an item on a field or a variant; only the first prefix counts. -/
inductive NameItemError (mapped : String → String → Prop) (words : List String) (pre : List NMeta) : NMeta → MErr → Prop where
  | notUnderstood {i : NMeta} (h : ¬ Known words ["rename", "prefix"] i) : NameItemError mapped words pre i .notUnderstood
  | notString {k : String} (h : k ∈ ["rename", "prefix"]) : NameItemError mapped words pre (.nameValue (some k) .other) .notString
  | duplicate {s p p' : String} (h : FirstPrefix pre p) (hp : IsTrim s p') :
      NameItemError mapped words pre (kv "prefix" s) (.duplicatePrefix p p')
  | notFound {s p : String} (h : ∀ s', kv "prefix" s' ∉ pre) (hp : IsTrim s p) (hu : Unresolved mapped p) :
      NameItemError mapped words pre (kv "prefix" s) (.prefixNotFound p)

/-! ### Fields -/

/-- What is wrong with the words of a field. -/
inductive FieldModeErrors (items : List NMeta) : List MErr → Prop where
  | fine {m : Mode} (h : FieldMode items m) : FieldModeErrors items []
  | defaultFlatten (ha : word "attribute" ∉ items) (hf : word "flatten" ∈ items) (ht : word "text" ∉ items) (hd : word "default" ∈ items) :
      FieldModeErrors items [.defaultFlatten]
  | exclusive {w w' : String} (hw : w ∈ ["attribute", "flatten", "text"]) (hw' : w' ∈ ["attribute", "flatten", "text"]) (hn : w ≠ w')
      (h : word w ∈ items) (h' : word w' ∈ items) : FieldModeErrors items [.exclusive]

/-- The errors in a field. -/
def FieldErrors (mapped : String → String → Prop) (f : DField) (errs : List MErr) : Prop :=
  ∃ es ms, ItemErrors (NameItemError mapped ["attribute", "default", "flatten", "text"]) [] (attrItems f.attrs) es ∧
    FieldModeErrors (attrItems f.attrs) ms ∧ errs = attrErrors f.attrs ++ es ++ ms

/-! ### Variants -/

/-- The errors in a variant. -/
def VariantErrors (mapped : String → String → Prop) (v : DVariant) (errs : List MErr) : Prop :=
  ∃ es ss, ItemErrors (NameItemError mapped []) [] (beforeSkip (attrItems v.attrs)) es ∧
    ReportIf (¬ Skipped v ∧ v.fields ≠ .unit ∧ v.fields ≠ .unnamed 1) .variantFields ss ∧ errs = attrErrors v.attrs ++ es ++ ss

/-! ### Declarations -/

/-- The errors in a declaration. -/
def DeclErrors (d : Decl) (errs : List MErr) : Prop :=
  match d.data with
  | .union => errs = [.unsupported]
  | .unnamed => ∃ ts, TypeErrors d.attrs ts ∧ errs = ts ++ [.unnamedFields]
  | .named fields => ∃ ts fs ms, TypeErrors d.attrs ts ∧ Rowwise (FieldErrors (Mapped (attrItems d.attrs))) fields fs ∧
      ReportIf (¬ fields.Pairwise fun f g => ¬ (FieldMode (attrItems f.attrs) .text ∧ FieldMode (attrItems g.attrs) .text)) .manyText ms ∧
      errs = ts ++ fs.flatten ++ ms
  | .enm vs => ∃ ts ws, TypeErrors d.attrs ts ∧ Rowwise (VariantErrors (Mapped (attrItems d.attrs))) vs ws ∧ errs = ts ++ ws.flatten

/-! ### Text types -/

/-- A known mode has been given. -/
def ModeGiven (items : List NMeta) : Prop := ∃ v ∈ ["std", "restriction", "union"], kv "mode" v ∈ items

/-- The first known mode given. -/
def FirstMode (items : List NMeta) (v : String) : Prop :=
  ∃ a b, items = a ++ kv "mode" v :: b ∧ v ∈ ["std", "restriction", "union"] ∧ ¬ ModeGiven a

/-- What is wrong with an item on a text type. -/
inductive TextItemError (pre : List NMeta) : NMeta → MErr → Prop where
  | notUnderstood {i : NMeta} (h : ¬ Known [] ["whitespace", "mode"] i) : TextItemError pre i .notUnderstood
  | whitespace {v : String} (h : v ∉ ["preserve", "replace", "collapse"]) : TextItemError pre (kv "whitespace" v) .badWhitespace
  | whitespaceString : TextItemError pre (.nameValue (some "whitespace") .other) .notString
  | redundant {l : Lit} (h : ModeGiven pre) : TextItemError pre (.nameValue (some "mode") l) .redundantMode
  | unknown {v : String} (h : ¬ ModeGiven pre) (hv : v ∉ ["std", "restriction", "union"]) : TextItemError pre (kv "mode" v) .unknownMode
  | modeString (h : ¬ ModeGiven pre) : TextItemError pre (.nameValue (some "mode") .other) .notString

/-- What is wrong with an item on a variant of a restriction. -/
inductive RestrictionItemError (pre : List NMeta) : NMeta → MErr → Prop where
  | notUnderstood {i : NMeta} (h : ¬ Known ["unknown"] ["rename"] i) : RestrictionItemError pre i .notUnderstood
  | notString : RestrictionItemError pre (.nameValue (some "rename") .other) .notString

/-- The errors in a variant of a restriction, after the variants `before`. -/
def RestrictionErrors (before : List DVariant) (v : DVariant) (errs : List MErr) : Prop :=
  ∃ es rs us ds ks, ItemErrors RestrictionItemError [] (attrItems v.attrs) es ∧
    ReportIf (Unknown v ∧ ∃ t, kv "rename" t ∈ attrItems v.attrs) .unknownRename rs ∧
    ReportIf (Unknown v ∧ v.fields ≠ .unnamed 1) .unknownFields us ∧
    ReportIf (Unknown v ∧ ∃ w ∈ before, Unknown w) .duplicateUnknown ds ∧
    ReportIf (¬ Unknown v ∧ v.fields ≠ .unit) .knownFields ks ∧
    errs = attrErrors v.attrs ++ es ++ rs ++ us ++ ds ++ ks

/-- The errors in the variants of a restriction. -/
inductive RestrictionsErrors : List DVariant → List DVariant → List MErr → Prop where
  | nil {before : List DVariant} : RestrictionsErrors before [] []
  | cons {before l : List DVariant} {v : DVariant} {es rest : List MErr} (h : RestrictionErrors before v es)
      (t : RestrictionsErrors (before ++ [v]) l rest) : RestrictionsErrors before (v :: l) (es ++ rest)

/-- The errors in a variant of a union, on which no items are understood. -/
def UnionErrors (v : DVariant) (errs : List MErr) : Prop :=
  ∃ ss, ReportIf (v.fields ≠ .unnamed 1) .variantFields ss ∧
    errs = attrErrors v.attrs ++ List.replicate (attrItems v.attrs).length .notUnderstood ++ ss

/-- The errors in a text type. -/
def TextErrors (d : Decl) (errs : List MErr) : Prop :=
  ∃ es rest, ItemErrors TextItemError [] (attrItems d.attrs) es ∧ errs = attrErrors d.attrs ++ es ++ rest ∧
    ((¬ ModeGiven (attrItems d.attrs) ∧ rest = [.noMode]) ∨
    (FirstMode (attrItems d.attrs) "std" ∧ rest = []) ∨
    (FirstMode (attrItems d.attrs) "restriction" ∧ ((∃ vs, d.data = .enm vs ∧ RestrictionsErrors [] vs rest) ∨
      ((∀ vs, d.data ≠ .enm vs) ∧ rest = [.unsupported]))) ∨
    (FirstMode (attrItems d.attrs) "union" ∧ ((∃ vs ws, d.data = .enm vs ∧ Rowwise UnionErrors vs ws ∧ rest = ws.flatten) ∨
      ((∀ vs, d.data ≠ .enm vs) ∧ rest = [.unsupported]))))

end SX.Spec
