import Verif.Spec.OpenRead
import Verif.Spec.Errors

/-
Which error reading a derived type with fields of arbitrary types returns: that of the first thing in document order that a field's type (or the generated
code) refuses, and if there is none, that of the first field that got no value.
-/
namespace SX.Spec.Open
open SX.Open

variable {σ τ α : Type}

/-- An error gets a place, if it has none. -/
def placed (stack : List StackElem) (pos : Pos) : VErr → Error
  | .propagate e => e
  | .wrap e => { kind := .deserializer e, stack, pos }

/-- A child is offered to visitors in turn, and the one that keeps it fails with this error. -/
def refuseElem (V : Visitor σ) (path : List StackElem) (x : Elem) (e : VErr) (stop : Stop) : List (Raw σ τ α × τ) → Prop
  | [] => False
  | (raw, t) :: l =>
    match raw.element t (infoOf path x) with
    | .ok (.back _) => refuseElem V path x e stop l
    | .ok (.take a) => ∃ t', perform V path x a = .ok (.ok (t', .err e), stop)
    | .error _ => False

/-- The same for an attribute. -/
def refuseAttr (n : EName) (e : VErr) : String → List (Raw σ τ α × τ) → Prop
  | _, [] => False
  | v, (raw, t) :: l =>
    match raw.attr t n v with
    | .ok (_, .ok (some v)) => refuseAttr n e v l
    | .ok (_, .err e') => e' = e
    | _ => False

/-- The same for text. -/
def refuseChars (pos : Pos) (e : DErr) : String → List (Raw σ τ α × τ) → Prop
  | _, [] => False
  | s, (raw, t) :: l =>
    match raw.characters t s pos with
    | .ok (_, .ok (some s)) => refuseChars pos e s l
    | .ok (_, .err e') => e' = e
    | _ => False

/-- A field's type has not refused what there was for the field. -/
def Took (V : Visitor σ) (here : List StackElem) (as : List XAttr) (F : Forest) (f : OField σ τ α) : Prop :=
  match f.kind with
  | .element impl => fill V here impl none (F.childrenNamed f.name.expanded) ≠ none
  | .attribute impl => fillAttr impl (as.filter fun a => a.name.expanded == f.name.expanded) ≠ none
  | .flatten _ => True

/-- Attributes and the content after them are accepted by all fields; `l`: the flattened ones after that. -/
def Accepts (V : Visitor σ) (here : List StackElem) (fields : List (OField σ τ α)) (as : List XAttr) (F : Forest) (l : List (Raw σ τ α × τ)) : Prop :=
  (∃ l1, flatAttrs fields as (newFlats fields) = some l1 ∧ flatContent V here fields F l1 = some l) ∧
  ∀ f ∈ fields, Took V here as F f

/-- An attribute is refused, after others have been accepted: it is the second for its field, or the field's type refuses it; or it is not declared and a
flattened field refuses it. -/
def RefusesAttr (fields : List (OField σ τ α)) (as : List XAttr) (l : List (Raw σ τ α × τ)) (a : XAttr) (e : VErr) : Prop :=
  (∃ f ∈ fields, ∃ impl, f.kind = .attribute impl ∧ f.name.expanded = a.name.expanded ∧
    if (∃ b ∈ as, b.name.expanded = a.name.expanded) then e = .wrap (.duplicateAttribute a.name.expanded)
    else impl.init a.value = .err e) ∨
  ¬ IsAttribute fields a.name.expanded ∧ refuseAttr a.name.expanded e a.value l

/-- A child is refused, after the content before it has been accepted: the `init` or, if there were such children before, the `update` of the field's type
fails; or it is not declared and a flattened field refuses it. -/
def RefusesElem (V : Visitor σ) (here : List StackElem) (fields : List (OField σ τ α)) (F : Forest) (l : List (Raw σ τ α × τ)) (x : Elem) (e : VErr)
    (stop : Stop) : Prop :=
  (∃ f ∈ fields, ∃ impl, f.kind = .element impl ∧ f.name.expanded = x.name.expanded ∧
    ∃ c, fill V here impl none (F.childrenNamed f.name.expanded) = some c ∧
      match c with
      | none => perform V here x (impl.init (infoOf here x)) = .ok (.err e, stop)
      | some v => ∃ w, perform V here x (impl.update v (infoOf here x)) = .ok ((w, .err e), stop)) ∨
  ¬ IsElement fields x.name.expanded ∧ refuseElem V here x e stop l

/-- There is nothing for a field. -/
def Lacks (x : Elem) (f : OField σ τ α) : Prop :=
  match f.kind with
  | .element _ => x.children.childrenNamed f.name.expanded = []
  | .attribute _ => ∀ a ∈ x.attrs, a.name.expanded ≠ f.name.expanded
  | .flatten _ => False

/-- In declaration order, the first field that cannot get a value fails with this error. -/
inductive Missing (V : Visitor σ) (here : List StackElem) (x : Elem) (e : VErr) : List (OField σ τ α) → List (Raw σ τ α × τ) → Prop where
  | plain {f : OField σ τ α} {fs : List (OField σ τ α)} {flats : List (Raw σ τ α × τ)} (hl : Lacks x f) (ha : absent f = .err e) :
      Missing V here x e (f :: fs) flats
  | flat {f : OField σ τ α} {fs : List (OField σ τ α)} {raw : Raw σ τ α} {t t' : τ} {flats : List (Raw σ τ α × τ)} (hk : f.kind = .flatten raw)
      (hf : raw.finalize t f.default = .ok (t', .err e)) : Missing V here x e (f :: fs) ((raw, t) :: flats)
  | laterPlain {f : OField σ τ α} {fs : List (OField σ τ α)} {flats : List (Raw σ τ α × τ)} {v : α} (hv : Gets V here x f v)
      (h : Missing V here x e fs flats) : Missing V here x e (f :: fs) flats
  | laterFlat {f : OField σ τ α} {fs : List (OField σ τ α)} {raw : Raw σ τ α} {t t' : τ} {flats : List (Raw σ τ α × τ)} (hk : f.kind = .flatten raw)
      (hf : raw.finalize t f.default = .ok (t', .ok ())) (h : Missing V here x e fs flats) : Missing V here x e (f :: fs) ((raw, t) :: flats)

/-- A struct with the given fields cannot be read from an element (`here`: the path of the element itself): the error, and where reading stops. -/
inductive StructFails (V : Visitor σ) (here : List StackElem) (fields : List (OField σ τ α)) (x : Elem) : VErr → Stop → Prop where
  /-- An attribute. -/
  | attr (as : List XAttr) (a : XAttr) (bs : List XAttr) (l : List (Raw σ τ α × τ)) (e : VErr) (hx : x.attrs = as ++ a :: bs)
      (ha : Accepts V here fields as .nil l) (h : RefusesAttr fields as l a e) :
      StructFails V here fields x (.propagate (placed here x.pos e)) { path := here, pos := x.pos }
  /-- Text. -/
  | chars (F : Forest) (s : String) (cd : Bool) (pos : Pos) (G : Forest) (l : List (Raw σ τ α × τ)) (e : DErr)
      (hx : x.children = F.append (.chars s cd pos G)) (ha : Accepts V here fields x.attrs F l) (h : refuseChars pos e s l) :
      StructFails V here fields x (.propagate { kind := .deserializer e, stack := here, pos }) { path := here, pos }
  /-- A child. -/
  | elem (F : Forest) (y : Elem) (G : Forest) (l : List (Raw σ τ α × τ)) (e : VErr) (stop : Stop)
      (hx : x.children = F.append (.elem y.name y.attrs y.ns y.pos y.children y.endPos G)) (ha : Accepts V here fields x.attrs F l)
      (h : RefusesElem V here fields F l y e stop) :
      StructFails V here fields x (.propagate (placed stop.path y.pos e)) stop
  /-- Everything is accepted, but something is missing. -/
  | missing (l : List (Raw σ τ α × τ)) (e : VErr) (ha : Accepts V here fields x.attrs x.children l) (h : Missing V here x e fields l) :
      StructFails V here fields x e { path := here, pos := x.endPos }

/-- Content with no variant in it. -/
def NoVariant (vs : List (OVariant σ α)) (F : Forest) : Prop := ∀ w ∈ vs, F.childrenNamed w.name.expanded = []

/-- The variant, and its payload, that the content so far stands for (compare `EnumRead`). -/
def Chosen (V : Visitor σ) (here : List StackElem) (vs : List (OVariant σ α)) (F : Forest) (var : OVariant σ α) (p : Option α) : Prop :=
  F.childrenNamed var.name.expanded ≠ [] ∧
    (∀ w ∈ vs, F.childrenNamed w.name.expanded ≠ [] → w.name.expanded = var.name.expanded) ∧
    match var.payload with
    | none => p = none
    | some impl => ∃ q, p = some q ∧ fill V here impl none (F.childrenNamed var.name.expanded) = some (some q)

/-- An enum with the given variants cannot be read from an element: the error, and where reading stops. -/
inductive EnumFails (V : Visitor σ) (here : List StackElem) (ident : String) (vs : List (OVariant σ α)) (x : Elem) : VErr → Stop → Prop where
  /-- The payload's type refuses the first child that is a variant. -/
  | init (F : Forest) (y : Elem) (G : Forest) (var : OVariant σ α) (impl : FieldImpl σ α) (e : VErr) (stop : Stop)
      (hx : x.children = F.append (.elem y.name y.attrs y.ns y.pos y.children y.endPos G)) (hF : NoVariant vs F) (hv : var ∈ vs)
      (hn : var.name.expanded = y.name.expanded) (hp : var.payload = some impl) (h : perform V here y (impl.init (infoOf here y)) = .ok (.err e, stop)) :
      EnumFails V here ident vs x (.propagate (placed stop.path y.pos e)) stop
  /-- It refuses one that follows. -/
  | update (F : Forest) (y : Elem) (G : Forest) (var : OVariant σ α) (impl : FieldImpl σ α) (q q' : α) (e : VErr) (stop : Stop)
      (hx : x.children = F.append (.elem y.name y.attrs y.ns y.pos y.children y.endPos G)) (hF : Chosen V here vs F var (some q)) (hv : var ∈ vs)
      (hn : var.name.expanded = y.name.expanded) (hp : var.payload = some impl)
      (h : perform V here y (impl.update q (infoOf here y)) = .ok ((q', .err e), stop)) :
      EnumFails V here ident vs x (.propagate (placed stop.path y.pos e)) stop
  /-- There is a child of another variant. -/
  | other (F : Forest) (y : Elem) (G : Forest) (var w : OVariant σ α) (p : Option α)
      (hx : x.children = F.append (.elem y.name y.attrs y.ns y.pos y.children y.endPos G)) (hF : Chosen V here vs F var p) (hv : var ∈ vs) (hw : w ∈ vs)
      (hn : w.name.expanded = y.name.expanded) (hne : w.name.expanded ≠ var.name.expanded) :
      EnumFails V here ident vs x
        (.propagate { kind := .deserializer (.unexpectedElement y.name.expanded var.name.expanded), stack := here ++ [{ name := y.name, pos := y.pos }],
                      pos := y.pos })
        { path := here ++ [{ name := y.name, pos := y.pos }], pos := y.pos }
  /-- There is no variant. -/
  | empty (hF : NoVariant vs x.children) : EnumFails V here ident vs x (.wrap (.cantBeEmpty ident)) { path := here, pos := x.endPos }

end SX.Spec.Open
