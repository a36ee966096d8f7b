import Verif.Model.Unwind
import Verif.Spec.Writer

/-
Specification for C73: writing when things panic.
-/
namespace SX.Spec.Unwind
open SX.Unwind SX.Open

/-- No `ElementWriter` is leaked with `std::mem::forget`. -/
def NoForget : {hs : List Handle} → UProg hs → Prop
  | _, .ret _ => True
  | _, .unwind => True
  | _, .element _ k => NoForget k
  | _, .text _ k => ∀ r, NoForget (k r)
  | _, .namespace _ _ k => ∀ r, NoForget (k r)
  | _, .attribute _ _ k => ∀ r, NoForget (k r)
  | _, .start ok fail panicked => NoForget ok ∧ (∀ e, NoForget (fail e)) ∧ NoForget panicked
  | _, .finish k => ∀ r, NoForget (k r)
  | _, .dropBuilder k => NoForget k
  | _, .dropWriter k => NoForget k
  | _, .forgetBuilder k => NoForget k
  | _, .forgetWriter _ => False

/-- The `io::Write` does not panic when an end tag is written. -/
def EndsSafely (sink : PSink) : Prop := ∀ tried, sink tried .stop ≠ .panics

/-- The `io::Write` never panics. -/
def Calm (sink : PSink) : Prop := ∀ tried e, sink tried e ≠ .panics

/-- All mappings a program asks for satisfy `M`. -/
def AttrMappings (M : String → String → Prop) : UAttr → Prop
  | .ret _ => True
  | .unwind => True
  | .namespace p u k => M p u ∧ ∀ r, AttrMappings M (k r)
  | .attribute _ _ k => ∀ r, AttrMappings M (k r)

/-- All mappings a program asks for satisfy `M`. -/
def Mappings (M : String → String → Prop) : {hs : List Handle} → UProg hs → Prop
  | _, .ret _ => True
  | _, .unwind => True
  | _, .element _ k => Mappings M k
  | _, .text _ k => ∀ r, Mappings M (k r)
  | _, .namespace p u k => M p u ∧ ∀ r, Mappings M (k r)
  | _, .attribute _ _ k => ∀ r, Mappings M (k r)
  | _, .start ok fail panicked => Mappings M ok ∧ (∀ e, Mappings M (fail e)) ∧ Mappings M panicked
  | _, .finish k => ∀ r, Mappings M (k r)
  | _, .dropBuilder k => Mappings M k
  | _, .dropWriter k => Mappings M k
  | _, .forgetBuilder k => Mappings M k
  | _, .forgetWriter k => Mappings M k

/-- Results that are not panics. -/
def asResult : Ret SErr Unit → Option (Except SErr Unit)
  | .ok () => some (.ok ())
  | .err e => some (.error e)
  | .panic => none

/-! ### Programs that do not catch panics -/

/-- The handles of a program, above the writer lent to it. -/
inductive Own : List Handle → Type where
  | base : Own [.writer false]
  | builder {hs : List Handle} (o : Own hs) : Own (.builder :: hs)
  | writer {hs : List Handle} (o : Own hs) : Own (.writer true :: hs)

/-- Unwinding: all handles of the program are dropped, innermost first. -/
def bail : {hs : List Handle} → Own hs → UProg hs
  | _, .base => .unwind
  | _, .builder o => .dropBuilder (bail o)
  | _, .writer o => .dropWriter (bail o)

/-- `write_attributes` that catches no panic. -/
def letThroughAttr : AttrProg → UAttr
  | .ret r => .ret r
  | .namespace p u k => .namespace p u fun r =>
    match r with
    | .ok () => letThroughAttr k
    | .err e => nomatch e
    | .panic => .unwind
  | .attribute n v k => .attribute n v fun r =>
    match r with
    | .ok () => letThroughAttr (k (.ok ()))
    | .err e => letThroughAttr (k (.error e))
    | .panic => .unwind

/-- `write_children` that catches no panic. -/
def letThrough : {hs : List Handle} → Prog hs → Own hs → UProg hs
  | _, .ret r, _ => .ret r
  | _, .element n k, o => .element n (letThrough k (.builder o))
  | _, .text t k, o => .text t fun r =>
    match r with
    | .ok () => letThrough (k (.ok ())) o
    | .err e => letThrough (k (.error e)) o
    | .panic => bail o
  | _, .namespace p u k, o => .namespace p u fun r =>
    match r with
    | .ok () => letThrough k o
    | .err e => nomatch e
    | .panic => bail o
  | _, .attribute n v k, o => .attribute n v fun r =>
    match r with
    | .ok () => letThrough (k (.ok ())) o
    | .err e => letThrough (k (.error e)) o
    | .panic => bail o
  | _, .start ok fail, .builder o => .start (letThrough ok (.writer o)) (fun e => letThrough (fail e) o) (bail o)
  | _, .finish k, .writer o => .finish fun r =>
    match r with
    | .ok () => letThrough (k (.ok ())) o
    | .err e => letThrough (k (.error e)) o
    | .panic => bail o
  | _, .dropBuilder k, .builder o => .dropBuilder (letThrough k o)
  | _, .dropWriter k, .writer o => .dropWriter (letThrough k o)
  | _, .forgetBuilder k, .builder o => .forgetBuilder (letThrough k o)
  | _, .forgetWriter k, .writer o => .forgetWriter (letThrough k o)

/-- A sink that does not panic. -/
def calm (sink : Sink) : PSink := fun tried e =>
  match sink tried e with
  | none => .done
  | some m => .fails m

end SX.Spec.Unwind
