import Verif.Model.Writer

/-
Documents that are written to something that fails on the way.
-/
namespace SX.Spec

/-- A writer that never fails. -/
def neverFails : Sink := fun _ _ => none

/-- What arrives of `es` after `before`, if writing fails as `sink` says and nothing is written after a failure; and that failure. -/
def received (sink : Sink) (before : List WEvent) : List WEvent → List WEvent × Option String
  | [] => ([], none)
  | e :: es =>
    match sink before e with
    | some m => ([], some m)
    | none => (e :: (received sink (before ++ [e]) es).1, (received sink (before ++ [e]) es).2)

end SX.Spec
