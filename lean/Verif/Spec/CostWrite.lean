import Verif.Model.CostWrite
import Verif.Spec.Writer

/-
What there is to write: how many start tags there are among events.  Uses data types of the model only.
-/
namespace SX.Spec.Cost

/-- Start tags. -/
def startTags : List WEvent → Nat
  | [] => 0
  | .start _ _ _ :: l => startTags l + 1
  | _ :: l => startTags l

/-- The mappings that go with each start tag are to URLs of `U`, and no more than there are of these. -/
def FewMappings (U : List String) (l : List WEvent) : Prop := ∀ q as ns, .start q as ns ∈ l → ns.length ≤ U.length ∧ ∀ x ∈ ns, x.2 ∈ U

/-- The mappings that go with all start tags. -/
def mappingsIn : List WEvent → Nat
  | [] => 0
  | .start _ _ ns :: l => ns.length + mappingsIn l
  | _ :: l => mappingsIn l

/-- For each start tag the mappings of the start tag around it, all together; `st` has how many each open one has. -/
def inherited : List Nat → List WEvent → Nat
  | _, [] => 0
  | st, .start _ _ ns :: l => st.headD 0 + inherited (ns.length :: st) l
  | st, .chars _ :: l => inherited st l
  | st, .stop :: l => inherited st.tail l

/-- The elements of a document. -/
def elementStarts : List EEvent → Nat
  | [] => 0
  | .start _ _ :: l => elementStarts l + 1
  | .chars _ :: l => elementStarts l
  | .stop :: l => elementStarts l

end SX.Spec.Cost
