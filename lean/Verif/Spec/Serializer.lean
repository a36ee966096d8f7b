import Verif.Model.Serializer
import Verif.Spec.Expanded

/-
Options of a serializer, and strings that are written and read (C107).
-/
namespace SX.Spec

/-- A call that sets an option. -/
inductive Setting where
  | indent (b : Bool)
  | declaration (b : Bool)

/-- The calls, one after the other. -/
def configured (z : Serializer) : List Setting → Serializer
  | [] => z
  | .indent b :: l => configured (z.performIndent b) l
  | .declaration b :: l => configured (z.writeDocumentDeclaration b) l

/-- What a list of calls asks for: of each option the last call, and without any what was there before. -/
def Asked (l : List Setting) (before after : EmitterConfig) : Prop :=
  ((∃ a b, l = a ++ .indent after.performIndent :: b ∧ ∀ x, .indent x ∉ b) ∨ (∀ x, .indent x ∉ l) ∧ after.performIndent = before.performIndent) ∧
  ((∃ a b, l = a ++ .declaration after.writeDocumentDeclaration :: b ∧ ∀ x, .declaration x ∉ b) ∨
    (∀ x, .declaration x ∉ l) ∧ after.writeDocumentDeclaration = before.writeDocumentDeclaration)

/-- xml-rs, writing and reading, conveys the events `out`: whatever the options, what it writes is UTF-8, and what its reader reports for that string is what was written
(`Transported`; indentation is among what this allows). -/
def Conveys (new : NewEmitter) (parse : String → Input) (out : List WEvent) : Prop :=
  ∀ cfg, ∃ (str : String) (d : Doc), (new cfg).bytes out = str.toUTF8 ∧ parse str = d.input ∧ Transported out d

/-- A serializer for a value of a type under a name. -/
def serializerFor (env : Env) (name : EName) (ty : Ty) (v : Val) : Serializer := serializeWithName (writeAttributes env ty v) (writeChildren env ty v .ret) name

end SX.Spec
