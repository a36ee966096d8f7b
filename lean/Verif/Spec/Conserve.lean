import Verif.Spec.DeriveSer

/-
The texts in a value and those in a document (C112).
-/
namespace SX.Spec

/-- The type of what a field holds, once or in an `Option` or a `Vec`. -/
def kindTy : Kind → Ty
  | .element s => s.ty
  | .attribute _ t => .text t
  | .flatten e => .enm e
  | .text t => .text t

mutual
/-- The texts in a value of the given type (or in an `Option` or a `Vec` of such), from left to right, with their declared types. -/
def leaves (env : Env) : Ty → Val → List (TextTy × TVal)
  | .text t, .text u => [(t, u)]
  | .strct i, .strct vs => leavesFields env (env.strct i).fields vs
  | .enm i, .enm j (some v) =>
    match (env.enm i).variants[j]? with
    | some w =>
      match w.slot with
      | some s => leaves env s.ty v
      | none => []
    | none => []
  | ty, .opt (some v) => leaves env ty v
  | ty, .vec l => leavesAll env ty l
  | _, _ => []

/-- The texts in values of one type. -/
def leavesAll (env : Env) (ty : Ty) : List Val → List (TextTy × TVal)
  | [] => []
  | v :: l => leaves env ty v ++ leavesAll env ty l

/-- The texts in the fields of a struct. -/
def leavesFields (env : Env) : List Field → List Val → List (TextTy × TVal)
  | f :: fs, v :: l => leaves env (kindTy f.kind) v ++ leavesFields env fs l
  | _, _ => []
end

/-- The texts in what was written: values of attributes, and texts of elements. -/
def textsOf : List WEvent → List String
  | [] => []
  | .start _ as _ :: l => as.map Prod.snd ++ textsOf l
  | .chars s :: l => s :: textsOf l
  | .stop :: l => textsOf l

end SX.Spec
