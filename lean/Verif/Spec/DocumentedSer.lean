import Verif.Model.DeriveDe
import Verif.Model.DeriveSer

/-
What the documentation says about writing and about names, to state C88.
-/
namespace SX.Spec

/-- The builders of namespaces that occur (`ser/mod.rs:694-717,215-227,117-148`): that of the root element, those of children, and what becomes of
them when namespaces are mapped and attributes added. -/
inductive Reached (dbg : Bool) : NsBuilder → Prop where
  | root : Reached dbg []
  | child (b : NsBuilder) (n : Namespaces) (url : String) : Reached dbg b → b.finalize = .ok n → Reached dbg (n.child url)
  | «namespace» (b b' : NsBuilder) (pfx url : String) : Reached dbg b → b.insert dbg pfx url = .ok b' → Reached dbg b'
  | «attribute» (b : NsBuilder) (url : String) : Reached dbg b → Reached dbg (b.attribute url)

/-- The same types with other type-level `rename` and `prefix` (`lib.rs:208-215`). -/
def withRoots (env : Env) (structs enums : Nat → DName) : Env where
  strct i := { env.strct i with root := structs i }
  enm i := { env.enm i with root := enums i }

/-- The same types with other type-level `namespace` and `default_namespace` (`lib.rs:216-241`), the URLs of fields and variants being the same. -/
def withMappings (env : Env) (structs enums : Nat → List (String × String)) : Env where
  strct i := { env.strct i with namespaces := structs i }
  enm i := { env.enm i with namespaces := enums i }

end SX.Spec
