import Verif.Spec.DeriveSer
import Verif.Spec.DeriveForms
import Verif.Spec.Macro
import Verif.Spec.RoundTrip

/-
The part of XML Schema that the documentation compares the derive macros with (`lib.rs:101-190,325-450`), and which declared types
belong to which schema types.  Validity knows nothing about Rust types, and is about documents up to prefixes, positions, comments
and the like.
-/
namespace SX.Spec.Schema

/-! ### Schemas and valid documents -/

/-- The type of an element: a simple type, given by the texts it allows, or a complex type, by number. -/
inductive XTy where
  | simple (lex : String → Prop)
  | complex (i : Nat)

/-- `<xs:element name=… type=… minOccurs=… maxOccurs=…/>`; `max = none`: unbounded. -/
structure ElemDecl where
  name : EName
  min : Nat
  max : Option Nat
  ty : XTy

/-- So many of them are allowed. -/
def ElemDecl.Allows (d : ElemDecl) (n : Nat) : Prop := d.min ≤ n ∧ ∀ m, d.max = some m → n ≤ m

/-- A part of a `<xs:sequence>`: an element, or a `<xs:choice>` between elements. -/
inductive Particle where
  | element (d : ElemDecl)
  | choice (ds : List ElemDecl)

/-- `<xs:attribute name=… use=…/>` -/
structure AttrUse where
  name : EName
  required : Bool
  lex : String → Prop

/-- `<xs:complexType>` with a sequence and attributes. -/
structure Complex where
  content : List Particle
  attrs : List AttrUse

/-- The complex types of a schema. -/
abbrev Schemas := Nat → Complex

/-- As many elements with the name as are allowed. -/
def ElemDecl.Lang (d : ElemDecl) (w : List EName) : Prop := ∃ n, d.Allows n ∧ w = List.replicate n d.name

def Particle.Lang : Particle → List EName → Prop
  | .element d, w => d.Lang w
  | .choice ds, w => ∃ d ∈ ds, d.Lang w

/-- The sequences of names of child elements that a content model allows. -/
def Lang : List Particle → List EName → Prop
  | [], w => w = []
  | p :: ps, w => ∃ u v, w = u ++ v ∧ p.Lang u ∧ Lang ps v

/-- The element declarations of a content model. -/
def decls (content : List Particle) : List ElemDecl :=
  content.flatMap fun
    | .element d => [d]
    | .choice ds => ds

/-- A child element. -/
structure Child where
  name : EName
  attrs : List (EName × String)
  content : EForest

/-- The child elements. -/
def children : EForest → List Child
  | .nil => []
  | .elem name attrs content rest => { name, attrs, content } :: children rest
  | .chars _ rest => children rest

/-- The text directly inside. -/
def text : EForest → String
  | .nil => ""
  | .elem _ _ _ rest => text rest
  | .chars s rest => s ++ text rest

/-- The namespace of `xsi:type`, `xsi:schemaLocation` and so on, which all elements may have. -/
def xsi : String := "http://www.w3.org/2001/XMLSchema-instance"

/-- The attributes of an element are those that its type declares. -/
structure AttrsValid (uses : List AttrUse) (attrs : List (EName × String)) : Prop where
  once : (attrs.map Prod.fst).Nodup
  declared : ∀ a ∈ attrs, (∃ u ∈ uses, u.name = a.1) ∨ a.1.ns = xsi
  typed : ∀ a ∈ attrs, ∀ u ∈ uses, u.name = a.1 → u.lex a.2
  required : ∀ u ∈ uses, u.required = true → ∃ a ∈ attrs, a.1 = u.name

/-- An element with these attributes and this content is valid: a simple type has text only; the names of the children of a complex
type follow its content model, and each child is valid by its declaration. -/
inductive Valid (S : Schemas) : XTy → List (EName × String) → EForest → Prop where
  | simple {lex : String → Prop} {attrs : List (EName × String)} {g : EForest} (ha : AttrsValid [] attrs) (hc : children g = [])
      (ht : lex (text g)) : Valid S (.simple lex) attrs g
  | complex {i : Nat} {attrs : List (EName × String)} {g : EForest} (ha : AttrsValid (S i).attrs attrs) (ht : Blank (text g))
      (hl : Lang (S i).content ((children g).map Child.name))
      (hc : ∀ c ∈ children g, ∀ d ∈ decls (S i).content, d.name = c.name → Valid S d.ty c.attrs c.content) :
      Valid S (.complex i) attrs g

/-- The attributes and the content of what the parser reports, without prefixes, positions, comments and processing instructions. -/
def attrsOf (l : List XAttr) : List (EName × String) := l.map fun a => (a.name.expanded, a.value)

def contentOf : Forest → EForest
  | .nil => .nil
  | .elem q as _ _ ch _ rest => .elem q.expanded (attrsOf as) (contentOf ch) (contentOf rest)
  | .chars s _ _ rest => .chars s (contentOf rest)
  | .misc _ _ rest => contentOf rest

/-- The root element is valid. -/
def DocValid (S : Schemas) (x : XTy) (d : Doc) : Prop := Valid S x (attrsOf d.root.attrs) (contentOf d.root.children)

/-! ### Values that stand for valid documents -/

/-- What a value can belong to: a type, or a choice. -/
inductive Of where
  | type (x : XTy)
  | oneOf (ds : List ElemDecl)

/-- The text of an attribute is allowed, and it is there if it must be. -/
def AttrConforms (u : AttrUse) (o : Bool) (t : TextTy) (v : Val) : Prop :=
  Shape (.attribute o t) v ∧ (∀ s, attrText o t v = some s → u.lex s) ∧ (u.required = true → attrText o t v ≠ none)

/-- A value of a Rust type is one of a schema type: its texts are allowed, and there are as many values as elements are allowed. -/
inductive Conforms (env : Env) (S : Schemas) : Of → Ty → Val → Prop where
  | simple {lex : String → Prop} {t : TextTy} {tv : TVal} {s : String} (h : t.toText tv = some s) (hl : lex s) :
      Conforms env S (.type (.simple lex)) (.text t) (.text tv)
  | strct {i j : Nat} {vs : List Val} (len : vs.length = (env.strct j).fields.length)
      (attrs : ∀ (p : Nat) (f : Field) (v : Val) o t, (env.strct j).fields[p]? = some f → vs[p]? = some v → f.kind = .attribute o t →
        ∀ u ∈ (S i).attrs, u.name = f.name.expanded → AttrConforms u o t v)
      (card : ∀ (p : Nat) (f : Field) (s : Slot) (v : Val), (env.strct j).fields[p]? = some f → vs[p]? = some v → f.kind = .element s →
        CardOk s.card v)
      (counts : ∀ (p : Nat) (f : Field) (s : Slot) (v : Val) (d : ElemDecl), (env.strct j).fields[p]? = some f → vs[p]? = some v →
        f.kind = .element s → .element d ∈ (S i).content → d.name = f.name.expanded → d.Allows (valuesOf s.card v).length)
      (elems : ∀ (p : Nat) (f : Field) (s : Slot) (v w : Val) (d : ElemDecl), (env.strct j).fields[p]? = some f → vs[p]? = some v →
        f.kind = .element s → .element d ∈ (S i).content → d.name = f.name.expanded → w ∈ valuesOf s.card v →
        Conforms env S (.type d.ty) s.ty w)
      (flats : ∀ (p : Nat) (f : Field) (e : Nat) (v : Val) (ds : List ElemDecl), (env.strct j).fields[p]? = some f → vs[p]? = some v →
        f.kind = .flatten e → .choice ds ∈ (S i).content → Conforms env S (.oneOf ds) (.enm e) v) :
      Conforms env S (.type (.complex i)) (.strct j) (.strct vs)
  | enm {i e : Nat} {ds : List ElemDecl} {v : Val} (hc : (S i).content = [.choice ds]) (h : Conforms env S (.oneOf ds) (.enm e) v) :
      Conforms env S (.type (.complex i)) (.enm e) v
  | oneOf {e j : Nat} {ds : List ElemDecl} {d : ElemDecl} {w : Variant} {s : Slot} {p : Val} (hd : d ∈ ds)
      (hv : (env.enm e).variants[j]? = some w) (hn : d.name = w.name.expanded) (hs : w.slot = some s) (card : CardOk s.card p)
      (count : d.Allows (valuesOf s.card p).length) (items : ∀ x ∈ valuesOf s.card p, Conforms env S (.type d.ty) s.ty x) :
      Conforms env S (.oneOf ds) (.enm e) (.enm j (some p))

/-! ### Which Rust types are for which schema types -/

/-- The texts of the simple type are understood, and written as texts of the simple type. -/
def TextFor (lex : String → Prop) (t : TextTy) : Prop :=
  ∀ s, lex s → ∃ tv s', t.parse s = .ok tv ∧ t.toText tv = some s' ∧ lex s'

/-- Complex type `i` is for the struct or enum `X i`. -/
def TypeFor (X : Nat → Ty) : XTy → Ty → Prop
  | .simple lex, .text t => TextFor lex t
  | .simple _, _ => False
  | .complex i, ty => ty = X i

/-- `T` for elements that occur once, or at most once if there is a default; `Option<T>` if at most once; `Vec<T>`. -/
def OccursFor (d : ElemDecl) (c : Card) (default : Bool) : Prop :=
  (c ≠ .many → d.max = some 1) ∧ (c = .one → default = false → 1 ≤ d.min)

/-- Elements are for element fields, choices for flattened fields; the variants of the enum are for the elements of the choice. -/
def VariantFor (X : Nat → Ty) (d : ElemDecl) (w : Variant) : Prop :=
  d.name = w.name.expanded ∧ ∃ s, w.slot = some s ∧ TypeFor X d.ty s.ty ∧ (s.card ≠ .many → d.max = some 1) ∧ 1 ≤ d.min

def FieldFor (env : Env) (S : Schemas) (X : Nat → Ty) : Particle → Field → Prop
  | .element d, f => d.name = f.name.expanded ∧ ∃ s, f.kind = .element s ∧ TypeFor X d.ty s.ty ∧
      OccursFor d s.card f.default.isSome ∧ ∀ v, f.default = some v → CardOk s.card v ∧ d.Allows (valuesOf s.card v).length ∧
        ∀ w ∈ valuesOf s.card v, Conforms env S (.type d.ty) s.ty w
  | .choice ds, f => ∃ e, f.kind = .flatten e ∧ Rowwise (VariantFor X) ds (env.enm e).variants

/-- Attributes are for attribute fields: `T` if required or with a default, else `Option<T>`. -/
def AttrFor (u : AttrUse) (f : Field) : Prop :=
  u.name = f.name.expanded ∧ ∃ o t, f.kind = .attribute o t ∧ TextFor u.lex t ∧ (u.required = true ∨ o = true ∨ f.default.isSome = true) ∧
    ∀ v, f.default = some v → AttrConforms u o t v

def isAttribute (f : Field) : Bool :=
  match f.kind with
  | .attribute _ _ => true
  | _ => false

/-- A complex type is for a struct with the same content model and attributes; one that is only a choice may also be for an enum. -/
def ComplexFor (env : Env) (S : Schemas) (X : Nat → Ty) (c : Complex) : Ty → Prop
  | .strct j => Rowwise (FieldFor env S X) c.content ((env.strct j).fields.filter fun f => !isAttribute f) ∧
      Rowwise AttrFor c.attrs ((env.strct j).fields.filter isAttribute)
  | .enm e => c.attrs = [] ∧ ∃ ds, c.content = [.choice ds] ∧ Rowwise (VariantFor X) ds (env.enm e).variants
  | .text _ => False

def isChoice : Particle → Bool
  | .choice _ => true
  | _ => false

/-- The Rust types `X` are for the schema `S`: type by type; within a content model no name is used twice, and there is at most one
choice.  (With two flattened fields reading fails, see C21.) -/
structure Translates (env : Env) (S : Schemas) (X : Nat → Ty) : Prop where
  types : ∀ i, ComplexFor env S X (S i) (X i)
  names : ∀ i, ((decls (S i).content).map ElemDecl.name).Nodup
  one : ∀ i, ((S i).content.filter isChoice).length ≤ 1

/-- Choices come last. -/
def ChoicesLast (S : Schemas) : Prop := ∀ i, ∃ es cs, (S i).content = es ++ cs ∧ (∀ p ∈ es, isChoice p = false) ∧ ∀ p ∈ cs, isChoice p = true

end SX.Spec.Schema
