import Verif.Spec.Typed
import Verif.Spec.OpenSer
import Verif.Spec.Macro

/-
What is left of a document, and of a value, without the texts.
-/
namespace SX.Spec

/-- An event without its text and without the values of its attributes: the names, the prefixes and the declarations of namespaces stay. -/
def markup : WEvent → WEvent
  | .start q as ns => .start q (as.map fun a => (a.1, "")) ns
  | .chars _ => .chars ""
  | .stop => .stop

/-- An error without the values in it. -/
def SErr.bare : SErr → SErr
  | .duplicateAttribute n _ _ => .duplicateAttribute n "" ""
  | e => e

/-- Both succeed, or both fail for the same reason, with other values perhaps. -/
def SameResult (r r' : Except SErr Unit) : Prop := r.mapError SErr.bare = r'.mapError SErr.bare

/-- Two destinations that fail, if they do, whatever the texts are, and both. -/
def SameSinks (sink sink' : Sink) : Prop :=
  ∀ b b' e e', b.map markup = b'.map markup → markup e = markup e' → sink b e = sink' b' e'

/-- What two outcomes of writing have in common: the markup, what is wrong, the result; or the panic. -/
inductive SameMarkup : Except Fault (WState × Except SErr Unit) → Except Fault (WState × Except SErr Unit) → Prop where
  | panic (f : Fault) : SameMarkup (.error f) (.error f)
  | done {s s' : WState} {r r' : Except SErr Unit} (out : s.out.map markup = s'.out.map markup) (poison : s.poison = s'.poison) (result : SameResult r r') :
      SameMarkup (.ok (s, r)) (.ok (s', r'))

mutual
/-- A value without its texts, numbers and so on: which variants, which optional fields are there, how many items. -/
def bare : Val → Val
  | .text _ => .text (.str "")
  | .strct l => .strct (bareAll l)
  | .enm i p => .enm i (bareOpt p)
  | .opt v => .opt (bareOpt v)
  | .vec l => .vec (bareAll l)
/-- The same for several values. -/
def bareAll : List Val → List Val
  | [] => []
  | v :: l => bare v :: bareAll l
/-- The same for one or none. -/
def bareOpt : Option Val → Option Val
  | none => none
  | some v => some (bare v)
end

end SX.Spec

namespace SX.Spec.Open

/-- Two implementations of `write_attributes` that call the same, with other values. -/
inductive AttrLike : AttrProg → AttrProg → Prop where
  | ret {r r' : Except SErr Unit} (h : SameResult r r') : AttrLike (.ret r) (.ret r')
  | «namespace» (p u : String) {k k' : AttrProg} (h : AttrLike k k') : AttrLike (.namespace p u k) (.namespace p u k')
  | «attribute» (n : EName) (v v' : String) {k k' : Except SErr Unit → AttrProg} (h : ∀ r r', SameResult r r' → AttrLike (k r) (k' r')) :
      AttrLike (.attribute n v k) (.attribute n v' k')

/-- Two implementations of `write_children` that call the same, with other texts and values. -/
inductive Like : {hs : List Handle} → Prog hs → Prog hs → Prop where
  | ret {r r' : Except SErr Unit} (h : SameResult r r') : Like (.ret r) (.ret r')
  | element {o : Bool} {hs : List Handle} (name : EName) {k k' : Prog (.builder :: .writer o :: hs)} (h : Like k k') : Like (.element name k) (.element name k')
  | text {o : Bool} {hs : List Handle} (s s' : String) {k k' : Except SErr Unit → Prog (.writer o :: hs)} (h : ∀ r, Like (k r) (k' r)) : Like (.text s k) (.text s' k')
  | «namespace» {hs : List Handle} (p u : String) {k k' : Prog (.builder :: hs)} (h : Like k k') : Like (.namespace p u k) (.namespace p u k')
  | «attribute» {hs : List Handle} (n : EName) (v v' : String) {k k' : Except SErr Unit → Prog (.builder :: hs)}
      (h : ∀ r r', SameResult r r' → Like (k r) (k' r')) : Like (.attribute n v k) (.attribute n v' k')
  | start {hs : List Handle} {ok ok' : Prog (.writer true :: hs)} {fail fail' : SErr → Prog hs} (h : Like ok ok') (hf : ∀ e, Like (fail e) (fail' e)) :
      Like (.start ok fail) (.start ok' fail')
  | finish {hs : List Handle} {k k' : Except SErr Unit → Prog hs} (h : ∀ r, Like (k r) (k' r)) : Like (.finish k) (.finish k')
  | dropBuilder {hs : List Handle} {k k' : Prog hs} (h : Like k k') : Like (.dropBuilder k) (.dropBuilder k')
  | dropWriter {hs : List Handle} {k k' : Prog hs} (h : Like k k') : Like (.dropWriter k) (.dropWriter k')
  | forgetBuilder {hs : List Handle} {k k' : Prog hs} (h : Like k k') : Like (.forgetBuilder k) (.forgetBuilder k')
  | forgetWriter {hs : List Handle} {k k' : Prog hs} (h : Like k k') : Like (.forgetWriter k) (.forgetWriter k')

/-- Two values of hand-written types that are written by the same calls. -/
structure SerLike (v v' : SX.Open.Ser) : Prop where
  attrs : AttrLike v.attrs v'.attrs
  children : Like v.children v'.children

/-- Two values of a field that are written by the same calls. -/
inductive FieldLike : SX.Open.SField → SX.Open.SField → Prop where
  | «attribute» (name : DName) {w w' : EName → AttrProg} (h : AttrLike (w name.expanded) (w' name.expanded)) : FieldLike ⟨name, .attribute w⟩ ⟨name, .attribute w'⟩
  | element (name : DName) {w w' : EName → Prog [.writer false]} (h : Like (w name.expanded) (w' name.expanded)) : FieldLike ⟨name, .element w⟩ ⟨name, .element w'⟩
  | flatten (name : DName) {v v' : SX.Open.Ser} (h : SerLike v v') : FieldLike ⟨name, .flatten v⟩ ⟨name, .flatten v'⟩
  | text (name : DName) : FieldLike ⟨name, .text⟩ ⟨name, .text⟩

end SX.Spec.Open
