import Verif.Model.Basic

/-
Model of `static-xml/src/de/mod.rs`, lines 822-891: white space normalization.

The Rust function works in place on the bytes of the string.  The model keeps the
bytes as a list and the same indices (`end`, `copy.start`, `copy.end`, `outp`).  Every
indexing or `copy_within` that Rust would bounds-check returns `none` (a panic) when out
of range.
-/
namespace SX

/-- `de/mod.rs:822-828`: `enum WhiteSpace`. -/
inductive WhiteSpace where
  | preserve
  | replace
  | collapse
  deriving DecidableEq, Repr

/-- `de/mod.rs:839`: the closure `is_whitespace`, matching 0x09, 0x0A, 0x0D, 0x20. -/
def isWsByte (b : UInt8) : Bool :=
  b == 0x09 || b == 0x0A || b == 0x0D || b == 0x20

/-- `de/mod.rs:849-851`: `while end > 0 && is_whitespace(v[end - 1]) { end -= 1; }`. -/
def trimEnd (v : List UInt8) : Nat → Option Nat
  | 0 => some 0
  | e + 1 =>
    match v[e]? with
    | none => none
    | some b => if isWsByte b then trimEnd v e else some (e + 1)

/-- `de/mod.rs:868-870`: `while next_start < end && is_whitespace(v[next_start]) { next_start += 1; }`. -/
def skipWs (v : List UInt8) (end_ : Nat) (i : Nat) : Option Nat :=
  if i < end_ then
    match v[i]? with
    | none => none
    | some b => if isWsByte b then skipWs v end_ (i + 1) else some i
  else some i
termination_by end_ - i

/-- `slice::copy_within(s..e, dst)` (std): panics (here `none`) unless `s ≤ e ≤ len` and the
destination fits. -/
def copyWithin (v : List UInt8) (s e dst : Nat) : Option (List UInt8) :=
  if s ≤ e ∧ e ≤ v.length ∧ dst + (e - s) ≤ v.length then
    some (v.take dst ++ (v.drop s).take (e - s) ++ v.drop (dst + (e - s)))
  else none

/-- `de/mod.rs:861-879`: the main loop.  State: `v`, `copy = cs..ce`, `outp`.  Returns the
final state. -/
def normLoop (collapse : Bool) (end_ : Nat) (v : List UInt8) (cs ce outp : Nat) :
    Option (List UInt8 × Nat × Nat × Nat) :=
  if ce < end_ then
    match v[ce]? with
    | none => none
    | some b =>
      if isWsByte b then
        let v' := v.set ce 0x20
        if collapse then
          match skipWs v' end_ (ce + 1) with
          | none => none
          | some ns =>
            if ns > ce + 1 then
              match copyWithin v' cs (ce + 1) outp with
              | none => none
              | some v'' => normLoop collapse end_ v'' ns ns (outp + (ce + 1 - cs))
            else normLoop collapse end_ v' cs (ce + 1) outp
        else normLoop collapse end_ v' cs (ce + 1) outp
      else normLoop collapse end_ v cs (ce + 1) outp
  else some (v, cs, ce, outp)
termination_by end_ - ce

/-- `de/mod.rs:880-884`: copy the last range down if anything was removed, then truncate. -/
def normFinish (end_ : Nat) : List UInt8 × Nat × Nat × Nat → Option (List UInt8)
  | (v, cs, ce, outp) =>
    if cs > outp then
      match copyWithin v cs ce outp with
      | none => none
      | some v' => some (v'.take (outp + (ce - cs)))
    else some (v.take end_)

/-- `de/mod.rs:838-891`: `normalize`, on the bytes of the string.  `none` is a panic. -/
def normalizeBytes (v : List UInt8) : WhiteSpace → Option (List UInt8)
  | .preserve => some v
  | .replace => (normLoop false v.length v 0 0 0).bind (normFinish v.length)
  | .collapse =>
    match trimEnd v v.length with
    | none => none
    | some end_ =>
      let start := ((v.take end_).takeWhile isWsByte).length
      (normLoop true end_ v start start 0).bind (normFinish end_)

/-- `de/mod.rs:838-891`: `normalize` on strings: take the bytes, normalize them in place, convert
back with `String::from_utf8_unchecked` (line 887), which is undefined behaviour unless the bytes
are valid UTF-8. -/
def normalize (s : String) (mode : WhiteSpace) : Except Fault String :=
  match normalizeBytes s.toByteArray.data.toList mode with
  | none => .error .panic
  | some b =>
    match String.fromUTF8? (ByteArray.mk b.toArray) with
    | none => .error .ub
    | some s => .ok s

end SX
