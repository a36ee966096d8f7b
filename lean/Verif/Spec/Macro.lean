import Verif.Model.Macro

/-
What declarations mean: which namespaces are declared, what names, modes and texts fields and variants have, and which
declarations are in order.  Only the syntax of declarations and the descriptions are taken from the model.
-/
namespace SX.Spec

/-! ### Strings -/

/-- The characters with the Unicode property `White_Space`. -/
def unicodeWs : List Nat :=
  [0x9, 0xA, 0xB, 0xC, 0xD, 0x20, 0x85, 0xA0, 0x1680, 0x2000, 0x2001, 0x2002, 0x2003, 0x2004, 0x2005, 0x2006, 0x2007, 0x2008, 0x2009,
    0x200A, 0x2028, 0x2029, 0x202F, 0x205F, 0x3000]

/-- Only white space. -/
def AllBlank (l : List Char) : Prop := ∀ c ∈ l, c.toNat ∈ unicodeWs

/-- `t` is `s` without white space around it. -/
def IsTrim (s t : String) : Prop :=
  (∃ a b, s.toList = a ++ t.toList ++ b ∧ AllBlank a ∧ AllBlank b) ∧ (∀ c, t.toList.head? = some c → c.toNat ∉ unicodeWs) ∧
    ∀ c, t.toList.getLast? = some c → c.toNat ∉ unicodeWs

/-- `s` is `a`, a colon and a space, and `b`. -/
def Split (s a b : String) : Prop := s.toList = a.toList ++ [':', ' '] ++ b.toList

/-- The same, and it is the first colon with a space after it. -/
def FirstSplit (s a b : String) : Prop := Split s a b ∧ ∀ a' b', Split s a' b' → a.toList.length ≤ a'.toList.length

/-- Two lists of the same length, related element by element. -/
inductive Rowwise {α β : Type} (R : α → β → Prop) : List α → List β → Prop where
  | nil : Rowwise R [] []
  | cons {a : α} {b : β} {l : List α} {m : List β} (h : R a b) (t : Rowwise R l m) : Rowwise R (a :: l) (b :: m)

/-! ### Attributes -/

/-- The items in `#[static_xml(...)]`. -/
def attrItems (l : List Attr) : List NMeta :=
  l.flatMap fun
    | .list items => items
    | _ => []

/-- All uses of `static_xml` can be parsed and are lists. -/
def AttrsOk (l : List Attr) : Prop := Attr.notList ∉ l ∧ Attr.invalid ∉ l

/-- `key = "value"` -/
def kv (key value : String) : NMeta := .nameValue (some key) (.str value)

/-- A word. -/
def word (w : String) : NMeta := .path (some w)

/-- Starts with `xml`. -/
def Xmlish (s : String) : Prop := ∃ r, s.toList = 'x' :: 'm' :: 'l' :: r

/-- A namespace item that gives the prefix `xml` its built-in namespace, which declares nothing. -/
def BuiltIn (v : String) : Prop := ∃ a b, FirstSplit v a b ∧ Xmlish a ∧ IsTrim a "xml" ∧ IsTrim b xmlNs

/-- An item that declares a mapping. -/
inductive Declares : NMeta → String → String → Prop where
  | mapping {v a b p u : String} (split : FirstSplit v a b) (plain : ¬ Xmlish a) (hp : IsTrim a p) (hu : IsTrim b u) :
      Declares (kv "namespace" v) p u
  | plain {v u : String} (split : ∀ a b, ¬ Split v a b) (hu : IsTrim v u) : Declares (kv "namespace" v) "" u
  | default {v u : String} (hu : IsTrim v u) : Declares (kv "default_namespace" v) "" u

/-- A namespace item with a prefix that starts with `xml`, other than the built-in one. -/
def Reserved (i : NMeta) : Prop := ∃ v a b, i = kv "namespace" v ∧ FirstSplit v a b ∧ Xmlish a ∧ ¬ BuiltIn v

/-- The mappings declared on a type. -/
def Mapped (items : List NMeta) (p u : String) : Prop := ∃ i ∈ items, Declares i p u

/-- The literal of the last item with a key. -/
def LastOf (key : String) (items : List NMeta) (lit : Lit) : Prop :=
  ∃ pre post, items = pre ++ .nameValue (some key) lit :: post ∧ ∀ l, NMeta.nameValue (some key) l ∉ post

/-- No item with a key. -/
def NoneOf (key : String) (items : List NMeta) : Prop := ∀ l, NMeta.nameValue (some key) l ∉ items

/-- At most one item with a key. -/
def AtMostOne (key : String) (items : List NMeta) : Prop :=
  items.Pairwise fun i j => ¬ ((∃ l, i = .nameValue (some key) l) ∧ ∃ l, j = .nameValue (some key) l)

/-- The local name: of the last `rename`, or the identifier. -/
def LocalName (ident : String) (items : List NMeta) (loc : String) : Prop :=
  (NoneOf "rename" items ∧ loc = ident) ∨ LastOf "rename" items (.str loc)

/-- The namespace a prefix stands for, among the mappings of a type. -/
def PrefixNs (mapped : String → String → Prop) (p : String) (ns : Option String) : Prop :=
  (∃ u, mapped p u ∧ ns = some u) ∨
  ((∀ u, ¬ mapped p u) ∧ ((p = "xml" ∧ ns = some xmlNs) ∨ (p = "" ∧ ns = none)))

/-- The namespace of a name: that of its (last) prefix, if it has one. -/
def NameNs (mapped : String → String → Prop) (items : List NMeta) (ns : Option String) : Prop :=
  (NoneOf "prefix" items ∧ ns = none) ∨ ∃ s p, LastOf "prefix" items (.str s) ∧ IsTrim s p ∧ PrefixNs mapped p ns

/-- The last prefix, if any, can be resolved. -/
def PrefixOk (mapped : String → String → Prop) (items : List NMeta) : Prop := ∃ ns, NameNs mapped items ns

/-! ### Types -/

/-- Type-level attributes in order. -/
structure TypeOk (attrs : List Attr) : Prop where
  lists : AttrsOk attrs
  understood : ∀ i ∈ attrItems attrs, (∃ l, i = .nameValue (some "prefix") l) ∨ ∃ k v, k ∈ ["rename", "namespace", "default_namespace"] ∧ i = kv k v
  distinct : (attrItems attrs).Pairwise fun i j => ∀ p u u', Declares i p u → ¬ Declares j p u'
  prefixes : PrefixOk (Mapped (attrItems attrs)) (attrItems attrs)

/-! ### Fields -/

/-- The mode of a field. -/
inductive FieldMode (items : List NMeta) : Mode → Prop where
  | element (ha : word "attribute" ∉ items) (hf : word "flatten" ∉ items) (ht : word "text" ∉ items) : FieldMode items .element
  | attribute (ha : word "attribute" ∈ items) (hf : word "flatten" ∉ items) (ht : word "text" ∉ items) : FieldMode items .attribute
  | flatten (ha : word "attribute" ∉ items) (hf : word "flatten" ∈ items) (ht : word "text" ∉ items) (hd : word "default" ∉ items) :
      FieldMode items .flatten
  | text (ha : word "attribute" ∉ items) (hf : word "flatten" ∉ items) (ht : word "text" ∈ items) : FieldMode items .text

/-- A field's attributes in order. -/
structure FieldOk (mapped : String → String → Prop) (attrs : List Attr) : Prop where
  lists : AttrsOk attrs
  understood : ∀ i ∈ attrItems attrs, (∃ w, w ∈ ["attribute", "default", "flatten", "text"] ∧ i = word w) ∨
    ∃ k v, k ∈ ["rename", "prefix"] ∧ i = kv k v
  once : AtMostOne "prefix" (attrItems attrs)
  prefixes : PrefixOk mapped (attrItems attrs)
  mode : ∃ m, FieldMode (attrItems attrs) m

/-- What a field's description says. -/
structure FieldIs (mapped : String → String → Prop) (f : DField) (r : MField) : Prop where
  ident : r.ident = f.ident
  loc : LocalName f.ident (attrItems f.attrs) r.name.loc
  ns : NameNs mapped (attrItems f.attrs) r.name.ns
  mode : FieldMode (attrItems f.attrs) r.mode
  default : r.default = true ↔ word "default" ∈ attrItems f.attrs

/-- At most one text field. -/
def OneText (fields : List DField) : Prop :=
  fields.Pairwise fun f g => ¬ (word "text" ∈ attrItems f.attrs ∧ word "text" ∈ attrItems g.attrs)

/-! ### Variants -/

/-- The items of a variant up to `skip`; later ones are not looked at. -/
def beforeSkip (items : List NMeta) : List NMeta := items.takeWhile fun i => decide (i ≠ word "skip")

/-- A skipped variant. -/
def Skipped (v : DVariant) : Prop := word "skip" ∈ attrItems v.attrs

/-- A variant in order. -/
structure VariantOk (mapped : String → String → Prop) (v : DVariant) : Prop where
  lists : AttrsOk v.attrs
  understood : ∀ i ∈ beforeSkip (attrItems v.attrs), ∃ k s, k ∈ ["rename", "prefix"] ∧ i = kv k s
  once : AtMostOne "prefix" (beforeSkip (attrItems v.attrs))
  prefixes : PrefixOk mapped (beforeSkip (attrItems v.attrs))
  fields : Skipped v ∨ v.fields = .unit ∨ v.fields = .unnamed 1

/-- What a variant's description says. -/
structure VariantIs (mapped : String → String → Prop) (v : DVariant) (r : MVariant) : Prop where
  ident : r.ident = v.ident
  loc : LocalName v.ident (attrItems v.attrs) r.name.loc
  ns : NameNs mapped (attrItems v.attrs) r.name.ns
  payload : (r.payload = true ↔ v.fields = .unnamed 1) ∧ (r.payload = false ↔ v.fields = .unit)

/-! ### Declarations -/

/-- A declaration in order. -/
def DeclOk (d : Decl) : Prop :=
  TypeOk d.attrs ∧
    match d.data with
    | .named fields => (∀ f ∈ fields, FieldOk (Mapped (attrItems d.attrs)) f.attrs) ∧ OneText fields
    | .enm vs => ∀ v ∈ vs, VariantOk (Mapped (attrItems d.attrs)) v
    | _ => False

/-- A declaration with a reserved namespace prefix. -/
def UsesReserved (d : Decl) : Prop := d.data ≠ .union ∧ ∃ i ∈ attrItems d.attrs, Reserved i

/-- What the description of a type says about it as a whole. -/
structure AttrIs (ident : String) (attrs : List Attr) (r : MAttr) : Prop where
  loc : LocalName ident (attrItems attrs) r.name.loc
  ns : NameNs (Mapped (attrItems attrs)) (attrItems attrs) r.name.ns
  mappings : ∀ p u, (p, u) ∈ r.namespaces ↔ Mapped (attrItems attrs) p u
  functional : ∀ p u u', (p, u) ∈ r.namespaces → (p, u') ∈ r.namespaces → u = u'

/-- What the description of a declaration says. -/
def Describes (d : Decl) : Described → Prop
  | .strct s => ∃ fields, d.data = .named fields ∧ AttrIs d.ident d.attrs s.attr ∧
      Rowwise (FieldIs (Mapped (attrItems d.attrs))) fields s.fields
  | .enm e => ∃ vs, d.data = .enm vs ∧ AttrIs d.ident d.attrs e.attr ∧
      Rowwise (VariantIs (Mapped (attrItems d.attrs))) (vs.filter fun v => decide (word "skip" ∉ attrItems v.attrs)) e.variants ∧ (e.hasSkipped = true ↔ ∃ v ∈ vs, Skipped v)

/-! ### Text types -/

/-- The white space mode: of the last `whitespace`, or `preserve`. -/
def WsIs (items : List NMeta) (ws : WhiteSpace) : Prop :=
  (NoneOf "whitespace" items ∧ ws = .preserve) ∨
  (LastOf "whitespace" items (.str "preserve") ∧ ws = .preserve) ∨
  (LastOf "whitespace" items (.str "replace") ∧ ws = .replace) ∨
  (LastOf "whitespace" items (.str "collapse") ∧ ws = .collapse)

/-- Type-level attributes of a text type in order. -/
structure TextOkAttrs (attrs : List Attr) (mode : String) : Prop where
  lists : AttrsOk attrs
  understood : ∀ i ∈ attrItems attrs, i = kv "mode" mode ∨ ∃ w ∈ ["preserve", "replace", "collapse"], i = kv "whitespace" w
  given : kv "mode" mode ∈ attrItems attrs
  once : AtMostOne "mode" (attrItems attrs)
  known : mode ∈ ["std", "restriction", "union"]

/-- The catch-all variant of a restriction. -/
def Unknown (v : DVariant) : Prop := word "unknown" ∈ attrItems v.attrs

/-- A variant of a restriction in order. -/
structure RestrictionOk (v : DVariant) : Prop where
  lists : AttrsOk v.attrs
  understood : ∀ i ∈ attrItems v.attrs, i = word "unknown" ∨ ∃ t, i = kv "rename" t
  unknown : Unknown v → NoneOf "rename" (attrItems v.attrs) ∧ v.fields = .unnamed 1
  known : ¬ Unknown v → v.fields = .unit

/-- What the table of a restriction says about a variant: its text, or that it is the catch-all. -/
def RestrictionIs (v : DVariant) (r : Option String) : Prop :=
  (Unknown v ∧ r = none) ∨ ∃ t, ¬ Unknown v ∧ r = some t ∧ LocalName v.ident (attrItems v.attrs) t

/-- A text type in order. -/
def TextDeclOk (d : Decl) : Prop :=
  TextOkAttrs d.attrs "std" ∨
  (TextOkAttrs d.attrs "restriction" ∧ ∃ vs, d.data = .enm vs ∧ (∀ v ∈ vs, RestrictionOk v) ∧ vs.Pairwise fun v w => ¬ (Unknown v ∧ Unknown w)) ∨
  (TextOkAttrs d.attrs "union" ∧ ∃ vs, d.data = .enm vs ∧ ∀ v ∈ vs, AttrsOk v.attrs ∧ attrItems v.attrs = [] ∧ v.fields = .unnamed 1)

/-- What the description of a text type says. -/
def TextDescribes (d : Decl) : TextDescribed → Prop
  | .std ws => kv "mode" "std" ∈ attrItems d.attrs ∧ WsIs (attrItems d.attrs) ws
  | .restriction ws table => kv "mode" "restriction" ∈ attrItems d.attrs ∧ WsIs (attrItems d.attrs) ws ∧
      ∃ vs, d.data = .enm vs ∧ Rowwise RestrictionIs vs table
  | .union ws table => kv "mode" "union" ∈ attrItems d.attrs ∧ WsIs (attrItems d.attrs) ws ∧
      ∃ vs, d.data = .enm vs ∧ table = List.range vs.length

end SX.Spec
