import Verif.Spec.Text
import Verif.Spec.Schema

/-
Specification: simple types of XML Schema, their lexical spaces, and the text types that are meant for them (`lib.rs:73-219`).
-/
namespace SX.Spec.Schema

/-- `xs:boolean`; an integer type (`xs:byte` … `xs:unsignedLong`; a minus sign only for signed types, as in XML Schema 1.0); `xs:string`
with a `whiteSpace` facet; the same with `enumeration` facets; `xs:union`. -/
inductive SimpleTy where
  | boolean
  | integer (signed : Bool) (bits : Nat)
  | string (ws : WhiteSpace)
  | enumeration (ws : WhiteSpace) (values : List String)
  | union (members : List SimpleTy)

/-- The `whiteSpace` facet. -/
def facet : WhiteSpace → List Char → List Char
  | .preserve, s => s
  | .replace, s => replaceWs s
  | .collapse, s => collapseWs s

/-- `s` is allowed as the text of an element or attribute of the type. -/
inductive Lexical : SimpleTy → String → Prop where
  | boolean {s core : String} (b : Bool) (h : core ∈ boolLexical b) (hc : facet .collapse s.toList = core.toList) : Lexical .boolean s
  | integer {signed bits s} (n : Int) (h : IntLiteral signed (facet .collapse s.toList) n) (hr : inRange signed bits n) :
      Lexical (.integer signed bits) s
  | string {ws s} : Lexical (.string ws) s
  | enumeration {ws values} {s v : String} (hv : v ∈ values) (h : facet ws s.toList = v.toList) : Lexical (.enumeration ws values) s
  | union {ms m s} (hm : m ∈ ms) (h : Lexical m s) : Lexical (.union ms) s

/-- The text type `t` is for `m`.  `restriction` enums: their fixed strings are the enumerated values; with a variant for unknown values
(anywhere in the declaration), the union of the enumeration and the string (`lib.rs:138-182`). -/
inductive SimpleFor : SimpleTy → TextTy → Prop where
  | boolean : SimpleFor .boolean .bool
  | integer (t : IntTy) : SimpleFor (.integer t.signed t.bits) (.int t)
  | string : SimpleFor (.string .preserve) .string
  | restriction (name : String) (ws : WhiteSpace) (values : List String) :
      SimpleFor (.enumeration ws values) (.restriction name ws (values.map some))
  | unknown (name : String) (ws : WhiteSpace) (a b : List String) :
      SimpleFor (.union [.enumeration ws (a ++ b), .string ws]) (.restriction name ws (a.map some ++ none :: b.map some))
  | union (name : String) {ms : List SimpleTy} {ts : List TextTy} (hl : ms.length = ts.length)
      (h : ∀ (i : Nat) m t, ms[i]? = some m → ts[i]? = some t → SimpleFor m t) : SimpleFor (.union ms) (.union name .preserve ts)

end SX.Spec.Schema
