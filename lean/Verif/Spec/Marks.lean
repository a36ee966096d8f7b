import Verif.Spec.DeriveSer

/-
What a value has to say, piece by piece, and what is written of it (C113).
-/
namespace SX.Spec

/-- One piece of a document: an element of a local name, an attribute of a local name with its text, or a text. -/
inductive Mark where
  | element (loc : String)
  | «attribute» (loc : String) (text : Option String)
  | text (s : Option String)
  deriving DecidableEq, Repr

/-- What a value is for: a flattened field, an element or an attribute of the given local name. -/
inductive Holder where
  | flat
  | element (loc : String)
  | «attribute» (loc : String)

/-- The element itself. -/
def Holder.head : Holder → List Mark
  | .element loc => [.element loc]
  | _ => []

/-- A text in an attribute or an element. -/
def Holder.said : Holder → Option String → List Mark
  | .attribute loc, s => [.attribute loc s]
  | h, s => h.head ++ [.text s]

/-- What a field is for, and the type of what it holds. -/
def fieldHolder (f : Field) : Holder × Ty :=
  match f.kind with
  | .element s => (.element f.name.loc, s.ty)
  | .attribute _ t => (.attribute f.name.loc, .text t)
  | .flatten e => (.flat, .enm e)
  | .text t => (.flat, .text t)

mutual
/-- The pieces of a value of the given type (or of an `Option` or a `Vec` of such), from left to right. -/
def marks (env : Env) (h : Holder) : Ty → Val → List Mark
  | .text t, .text u => h.said (t.toText u)
  | .strct i, .strct vs => h.head ++ marksFields env (env.strct i).fields vs
  | .enm i, .enm j none =>
    match (env.enm i).variants[j]? with
    | some w => if w.skip then h.head else h.head ++ [.element w.name.loc]
    | none => []
  | .enm i, .enm j (some v) =>
    match (env.enm i).variants[j]? with
    | some w =>
      match w.slot with
      | some s => h.head ++ marks env (.element w.name.loc) s.ty v
      | none => []
    | none => []
  | ty, .opt (some v) => marks env h ty v
  | ty, .vec l => marksAll env h ty l
  | _, _ => []

/-- The pieces of values of one type. -/
def marksAll (env : Env) (h : Holder) (ty : Ty) : List Val → List Mark
  | [] => []
  | v :: l => marks env h ty v ++ marksAll env h ty l

/-- The pieces of the fields of a struct. -/
def marksFields (env : Env) : List Field → List Val → List Mark
  | f :: fs, v :: l => marks env (fieldHolder f).1 (fieldHolder f).2 v ++ marksFields env fs l
  | _, _ => []
end

/-- The pieces of what was written. -/
def marksOf : List WEvent → List Mark
  | [] => []
  | .start n as _ :: l => .element n.loc :: (as.map (fun a => .attribute a.1.loc (some a.2)) ++ marksOf l)
  | .chars s :: l => .text (some s) :: marksOf l
  | .stop :: l => marksOf l

end SX.Spec
