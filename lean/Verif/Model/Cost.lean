import Verif.Model.DeriveDe
import Verif.Model.Normalize
import Verif.Model.Namespaces

/-
Reading, normalization, lookup and the assignment of prefixes once more, each with a count of what it does: bytes looked at and moved, names compared, events fetched
from xml-rs, calls of visitors, prefixes tried.  The functions are those of `Model/Normalize.lean`, `Model/Names.lean`, `Model/Reader.lean`, `Model/DeriveDe.lean` and
`Model/Namespaces.lean`, from which they differ by the counts only (proved: the theorems `…_value` of `Proof/Cost.lean`).
-/
namespace SX.Cost

/-- Work done on a string: bytes looked at and bytes moved.  Not in the code: counts for `de/mod.rs:838-891`. -/
structure Bytes where
  looked : Nat
  moved : Nat
  deriving DecidableEq, Repr

/-- `de/mod.rs:849-851`: each test of the loop looks at one byte. -/
def trimEnd (v : List UInt8) : Nat → Nat × Option Nat
  | 0 => (0, some 0)
  | e + 1 =>
    match v[e]? with
    | none => (0, none)
    | some b =>
      if isWsByte b then
        match trimEnd v e with
        | (n, r) => (n + 1, r)
      else (1, some (e + 1))

/-- `de/mod.rs:852-856`: `take_while(..).count()` looks at the bytes it counts and at the one that ends them. -/
def leading : List UInt8 → Nat × Nat
  | [] => (0, 0)
  | b :: l =>
    if isWsByte b then
      match leading l with
      | (n, k) => (n + 1, k + 1)
    else (1, 0)

/-- `de/mod.rs:868-870`: each test of the loop looks at one byte. -/
def skipWs (v : List UInt8) (end_ : Nat) (i : Nat) : Nat × Option Nat :=
  if i < end_ then
    match v[i]? with
    | none => (0, none)
    | some b =>
      if isWsByte b then
        match skipWs v end_ (i + 1) with
        | (n, r) => (n + 1, r)
      else (1, some i)
  else (0, some i)
termination_by end_ - i

/-- `de/mod.rs:861-879`: the main loop.  `copy_within` moves as many bytes as there are in its range. -/
def normLoop (collapse : Bool) (end_ : Nat) (v : List UInt8) (cs ce outp : Nat) : Bytes × Option (List UInt8 × Nat × Nat × Nat) :=
  if ce < end_ then
    match v[ce]? with
    | none => (⟨0, 0⟩, none)
    | some b =>
      if isWsByte b then
        let v' := v.set ce 0x20
        if collapse then
          match skipWs v' end_ (ce + 1) with
          | (n, none) => (⟨n + 1, 0⟩, none)
          | (n, some ns) =>
            if ns > ce + 1 then
              match copyWithin v' cs (ce + 1) outp with
              | none => (⟨n + 1, 0⟩, none)
              | some v'' =>
                match normLoop collapse end_ v'' ns ns (outp + (ce + 1 - cs)) with
                | (w, r) => (⟨w.looked + n + 1, w.moved + (ce + 1 - cs)⟩, r)
            else
              match normLoop collapse end_ v' cs (ce + 1) outp with
              | (w, r) => (⟨w.looked + n + 1, w.moved⟩, r)
        else
          match normLoop collapse end_ v' cs (ce + 1) outp with
          | (w, r) => (⟨w.looked + 1, w.moved⟩, r)
      else
        match normLoop collapse end_ v cs (ce + 1) outp with
        | (w, r) => (⟨w.looked + 1, w.moved⟩, r)
  else (⟨0, 0⟩, some (v, cs, ce, outp))
termination_by end_ - ce

/-- `de/mod.rs:880-884`: the last range is moved down if anything was removed. -/
def normFinish (end_ : Nat) : List UInt8 × Nat × Nat × Nat → Nat × Option (List UInt8)
  | (v, cs, ce, outp) =>
    if cs > outp then
      match copyWithin v cs ce outp with
      | none => (0, none)
      | some v' => (ce - cs, some (v'.take (outp + (ce - cs))))
    else (0, some (v.take end_))

/-- `de/mod.rs:861-884`: the loop and what follows it. -/
def normRest (collapse : Bool) (end_ start : Nat) (v : List UInt8) : Bytes × Option (List UInt8) :=
  match normLoop collapse end_ v start start 0 with
  | (w, none) => (w, none)
  | (w, some st) =>
    match normFinish end_ st with
    | (m, r) => (⟨w.looked, w.moved + m⟩, r)

/-- `de/mod.rs:838-891`: `normalize`, on the bytes of the string. -/
def normalize (v : List UInt8) : WhiteSpace → Bytes × Option (List UInt8)
  | .preserve => (⟨0, 0⟩, some v)
  | .replace => normRest false v.length 0 v
  | .collapse =>
    match trimEnd v v.length with
    | (n, none) => (⟨n, 0⟩, none)
    | (n, some end_) =>
      match leading (v.take end_) with
      | (m, start) =>
        match normRest true end_ start v with
        | (w, r) => (⟨w.looked + m + n, w.moved⟩, r)

/-- `binary_search` (std), called in `de/mod.rs:955`: the number of comparisons. -/
def bsearch (cmp : EName → Ordering) (t : List EName) : Nat → Nat → Nat → Nat × Except Fault (Option Nat)
  | 0, left, right => (0, if left < right then .error .fuel else .ok none)
  | fuel + 1, left, right =>
    if left < right then
      let mid := left + (right - left) / 2
      match t[mid]? with
      | none => (0, .error .ub)
      | some x =>
        match cmp x with
        | .lt =>
          match bsearch cmp t fuel (mid + 1) right with
          | (n, r) => (n + 1, r)
        | .gt =>
          match bsearch cmp t fuel left mid with
          | (n, r) => (n + 1, r)
        | .eq => (1, .ok (some mid))
    else (0, .ok none)

/-- `de/mod.rs:954-956`: `find`. -/
def find (name : EName) (t : List EName) : Nat × Except Fault (Option Nat) :=
  bsearch (fun x => x.cmp name) t t.length 0 t.length

/-- What reading takes: events (and errors) fetched from xml-rs; calls of `attribute`, `characters` and `element` of visitors by `read_to`; and the work which those do
themselves, by some measure.  Not in the code: counts for `de/mod.rs:264-639`. -/
structure Tally where
  fetched : Nat
  attrs : Nat
  chars : Nat
  elems : Nat
  work : Nat
  deriving DecidableEq, Repr

/-- Nothing done.  Not in the code, as `Tally` (`de/mod.rs:264-639`). -/
def Tally.zero : Tally := ⟨0, 0, 0, 0, 0⟩

/-- One thing after another.  Not in the code, as `Tally` (`de/mod.rs:264-639`). -/
def Tally.add (a b : Tally) : Tally := ⟨a.fetched + b.fetched, a.attrs + b.attrs, a.chars + b.chars, a.elems + b.elems, a.work + b.work⟩

/-- `n` events fetched (`de/mod.rs:308,350,428`). -/
def Tally.fetches (n : Nat) : Tally := ⟨n, 0, 0, 0, 0⟩

/-- What the methods of visitors (`de/mod.rs:777-820`) do when called, by some measure. -/
structure Effort (σ : Type) where
  attr : σ → EName → String → Nat
  chars : σ → String → Pos → Nat
  elem : σ → ElemInfo → Nat

/-- The loop of `next` (`de/mod.rs:427-465`).  Every round fetches an event. -/
def nextLoop (dbg : Bool) (final : Final) (finalPos : Pos) (depth : Nat) (stack : List StackElem) :
    List (XEvent × Pos) → Nat × Out Error (Event × Pos)
  | [] =>
    match final with
    | .eof => (1, .error .diverge)
    | .err m p => (1, .ok (.error { kind := .xml m, stack, pos := p },
        { inner := { pos := finalPos, items := [], final, finalPos }, depth, stack }))
  | (e, pos) :: rest =>
    let inner : Inner := { pos, items := rest, final, finalPos }
    match e with
    | .startElement name attrs ns =>
      (1, .ok (.ok (.start attrs ns, pos), { inner, depth := depth + 1, stack := stack ++ [{ name, pos }] }))
    | .endElement name =>
      match depth with
      | 0 => (1, .error .panic)
      | d + 1 =>
        if dbg && (stack[d]?.map StackElem.name != some name) then (1, .error .panic)
        else (1, .ok (.ok (.end_ name, pos), { inner, depth := d, stack }))
    | .characters s => (1, .ok (.ok (.chars s, pos), { inner, depth, stack }))
    | .cdata s => (1, .ok (.ok (.chars s, pos), { inner, depth, stack }))
    | .misc _ =>
      match nextLoop dbg final finalPos depth stack rest with
      | (n, r) => (n + 1, r)
    | .startDocument =>
      match nextLoop dbg final finalPos depth stack rest with
      | (n, r) => (n + 1, r)

/-- `de/mod.rs:422-466`: `next`. -/
def next (dbg : Bool) (s : RState) : Nat × Out Error (Event × Pos) :=
  if dbg && s.stack.length != s.depth then (0, .error .panic)
  else nextLoop dbg s.inner.final s.inner.finalPos s.depth s.stack s.inner.items

/-- The `while` loop of `return_to_depth` (`de/mod.rs:475-480`). -/
def skipLoop (dbg : Bool) (target : Nat) : Nat → RState → Nat × Out Error Unit
  | 0, _ => (0, .error .fuel)
  | fuel + 1, s =>
    if s.depth > target then
      match next dbg s with
      | (n, .error f) => (n, .error f)
      | (n, .ok (.error e, s)) => (n, .ok (.error e, s))
      | (n, .ok (.ok _, s)) =>
        match skipLoop dbg target fuel { s with stack := s.stack.take s.depth } with
        | (m, r) => (n + m, r)
    else (0, .ok (.ok (), { s with stack := s.stack.take s.depth }))

/-- `de/mod.rs:468-481`: `return_to_depth`. -/
def returnToDepth (dbg : Bool) (target : Nat) (s : RState) : Nat × Out Error Unit :=
  if dbg && s.depth < target then (0, .error .panic)
  else skipLoop dbg target (s.inner.items.length + 1) s

/-- `de/mod.rs:559-565`: the attribute loop of `read_to`.  The counts are those of calls and of their work. -/
def visitAttrs {σ : Type} (V : Visitor σ) (C : Effort σ) (stack : List StackElem) (pos : Pos) :
    List XAttr → σ → Nat × Nat × Except Fault (σ × Except VErr Unit)
  | [], v => (0, 0, .ok (v, .ok ()))
  | a :: as, v =>
    let w := C.attr v a.name.expanded a.value
    match V.onAttr v a.name.expanded a.value with
    | .error f => (1, w, .error f)
    | .ok (v, .error e) => (1, w, .ok (v, .error (.propagate (e.toError stack pos))))
    | .ok (v, .ok ()) =>
      match visitAttrs V C stack pos as v with
      | (n, w', r) => (n + 1, w + w', r)

/-- `de/mod.rs:611-638`: `read_string`. -/
def readString (dbg : Bool) (er : ElemReader) : Nat → String → RState → Nat × Out VErr String
  | 0, _, _ => (0, .error .fuel)
  | fuel + 1, out, s =>
    if dbg && er.stackPos + 1 != s.stack.length then (0, .error .panic)
    else match next dbg s with
    | (n, .error f) => (n, .error f)
    | (n, .ok (.error e, s)) => (n, .ok (.error (.propagate e), s))
    | (n, .ok (.ok (.start _ _, pos), s)) =>
      match s.stack.getLast? with
      | none => (n, .error .panic)
      | some child => (n, .ok (.error (.propagate
          { kind := .msg (.elementInString child.name), stack := s.stack, pos }), s))
    | (n, .ok (.ok (.end_ _, _), s)) => (n, .ok (.ok out, s))
    | (n, .ok (.ok (.chars str, _), s)) =>
      match readString dbg er fuel (if out.isEmpty then str else out ++ str) s with
      | (m, r) => (n + m, r)

/-- `de/mod.rs:566-602`: the event loop of `read_to`, and (inside it) `read_to` of children (`de/mod.rs:557-565`). -/
def readLoop {σ : Type} (dbg : Bool) (V : Visitor σ) (C : Effort σ) :
    Nat → ElemReader → σ → RState → Tally × Except Fault (σ × Except VErr ReadToOk × RState)
  | 0, _, _, _ => (.zero, .error .fuel)
  | fuel + 1, er, v, s =>
    if dbg && er.stackPos + 1 != s.stack.length then (.zero, .error .panic)
    else match next dbg s with
    | (n, .error f) => (.fetches n, .error f)
    | (n, .ok (.error e, s)) => (.fetches n, .ok (v, .error (.propagate e), s))
    | (n, .ok (.ok (.end_ name, pos), s)) => (.fetches n, .ok (v, .ok (name, er.ns, pos), s))
    | (n, .ok (.ok (.chars str, pos), s)) =>
      let t : Tally := ⟨n, 0, 1, 0, C.chars v str pos⟩
      match V.onChars v str pos with
      | .error f => (t, .error f)
      | .ok (v, .error e) => (t, .ok (v, .error (.propagate { kind := .deserializer e, stack := s.stack, pos }), s))
      | .ok (v, .ok ()) =>
        match readLoop dbg V C fuel er v s with
        | (t', r) => (t.add t', r)
    | (n, .ok (.ok (.start attrs ns, pos), s)) =>
      let child : ElemReader := { ns, attrs, stackPos := er.stackPos + 1 }
      match s.stack[child.stackPos]? with
      | none => (.fetches n, .error .panic)
      | some elem =>
        let info : ElemInfo := { name := elem.name, ns, depth := child.stackPos + 1 }
        let t : Tally := ⟨n, 0, 0, 1, C.elem v info⟩
        let r : Tally × Except Fault ((Except Fault (σ × Except VErr Unit)) × RState) :=
          match V.onElem v info with
          | .done r => (.zero, .ok (r, s))
          | .readString k =>
            match readString dbg child fuel "" s with
            | (n, .error f) => (.fetches n, .error f)
            | (n, .ok (r, s)) => (.fetches n, .ok (k r, s))
          | .readTo sub k =>
            match visitAttrs V C s.stack elem.pos attrs sub with
            | (a, w, .error f) => (⟨0, a, 0, 0, w⟩, .error f)
            | (a, w, .ok (sub, .error e)) => (⟨0, a, 0, 0, w⟩, .ok (k sub (.error e), s))
            | (a, w, .ok (sub, .ok ())) =>
              match readLoop dbg V C fuel child sub s with
              | (t, .error f) => (Tally.add ⟨0, a, 0, 0, w⟩ t, .error f)
              | (t, .ok (sub, r, s)) => (Tally.add ⟨0, a, 0, 0, w⟩ t, .ok (k sub r, s))
        match r with
        | (t', .error f) => (t.add t', .error f)
        | (t', .ok (.error f, _)) => (t.add t', .error f)
        | (t', .ok (.ok (v, .error e), s)) => (t.add t', .ok (v, .error (.propagate (e.toError s.stack pos)), s))
        | (t', .ok (.ok (v, .ok ()), s)) =>
          match returnToDepth dbg (er.stackPos + 1) s with
          | (m, .error f) => ((t.add t').add (.fetches m), .error f)
          | (m, .ok (.error e, s)) => ((t.add t').add (.fetches m), .ok (v, .error (.propagate e), s))
          | (m, .ok (.ok (), s)) =>
            match readLoop dbg V C fuel er v s with
            | (t'', r) => (((t.add t').add (.fetches m)).add t'', r)

/-- `de/mod.rs:546-603`: `read_to` of the element `er`. -/
def readTo {σ : Type} (dbg : Bool) (V : Visitor σ) (C : Effort σ) (fuel : Nat) (er : ElemReader) (v : σ) (s : RState) :
    Tally × Except Fault (σ × Except VErr ReadToOk × RState) :=
  match s.stack[er.stackPos]? with
  | none => (.zero, .error .panic)
  | some elem =>
    match visitAttrs V C s.stack elem.pos er.attrs v with
    | (a, w, .error f) => (⟨0, a, 0, 0, w⟩, .error f)
    | (a, w, .ok (v, .error e)) => (⟨0, a, 0, 0, w⟩, .ok (v, .error e, s))
    | (a, w, .ok (v, .ok ())) =>
      match readLoop dbg V C fuel er v s with
      | (t, r) => (Tally.add ⟨0, a, 0, 0, w⟩ t, r)

/-- `de/mod.rs:307-341`: `root`. -/
def root (dbg : Bool) (s : RState) : Nat × Out Error ElemReader :=
  match s.inner.items with
  | [] =>
    match s.inner.final with
    | .eof => (1, .ok (.error { kind := .msg .expectedStartDocument, stack := [], pos := s.inner.finalPos },
        { s with inner := { s.inner with pos := s.inner.finalPos } }))
    | .err m p => (1, .ok (.error { kind := .xml m, stack := [], pos := p },
        { s with inner := { s.inner with pos := s.inner.finalPos } }))
  | (.startDocument, pos) :: rest =>
    match next dbg { s with inner := { s.inner with pos, items := rest } } with
    | (n, .error f) => (n + 1, .error f)
    | (n, .ok (.error e, s)) => (n + 1, .ok (.error e, s))
    | (n, .ok (.ok (.start attrs ns, _), s)) => (n + 1, .ok (.ok { ns, attrs, stackPos := 0 }, s))
    | (n, .ok (.ok (_, pos), s)) => (n + 1, .ok (.error { kind := .msg .expectedStartElement, stack := [], pos }, s))
  | (_, pos) :: rest => (1, .ok (.error { kind := .msg .expectedStartDocument, stack := [], pos },
      { s with inner := { s.inner with pos, items := rest } }))

/-- The loop of `end` (`de/mod.rs:349-361`). -/
def endLoop (final : Final) (finalPos : Pos) : List (XEvent × Pos) → Nat × Except Error Unit
  | [] =>
    match final with
    | .eof => (1, .ok ())
    | .err m p => (1, .error { kind := .xml m, stack := [], pos := p })
  | (.misc (.comment _), _) :: rest =>
    match endLoop final finalPos rest with
    | (n, r) => (n + 1, r)
  | (.misc (.pi _ _), _) :: rest =>
    match endLoop final finalPos rest with
    | (n, r) => (n + 1, r)
  | (_, pos) :: _ => (1, .error { kind := .msg .expectedEndDocument, stack := [], pos })

/-- `de/mod.rs:344-362`: `end`. -/
def endDoc (dbg : Bool) (s : RState) : Nat × Except Fault (Except Error Unit) :=
  match returnToDepth dbg 0 s with
  | (n, .error f) => (n, .error f)
  | (n, .ok (.error e, _)) => (n, .ok (.error e))
  | (n, .ok (.ok (), s)) =>
    match endLoop s.inner.final s.inner.finalPos s.inner.items with
    | (m, r) => (n + m, .ok r)

/-- Runs an implementation on an element: `T::deserialize(element)`.  `de/mod.rs:267,668`. -/
def runDeser {σ α : Type} (dbg : Bool) (V : Visitor σ) (C : Effort σ) (D : Deser σ α) (fuel : Nat) (er : ElemReader)
    (s : RState) : Tally × Except Fault (Except VErr α × RState) :=
  match s.stack[er.stackPos]? with
  | none => (.zero, .error .panic)
  | some elem =>
    let r : Tally × Except Fault ((Except Fault (Except VErr α)) × RState) :=
      match D { name := elem.name, ns := er.ns, depth := er.stackPos + 1 } with
      | .done r => (.zero, .ok (r, s))
      | .readString k =>
        match readString dbg er fuel "" s with
        | (n, .error f) => (.fetches n, .error f)
        | (n, .ok (r, s)) => (.fetches n, .ok (k r, s))
      | .readTo sub k =>
        match readTo dbg V C fuel er sub s with
        | (t, .error f) => (t, .error f)
        | (t, .ok (sub, r, s)) => (t, .ok (k sub r, s))
    match r with
    | (t, .error f) => (t, .error f)
    | (t, .ok (.error f, _)) => (t, .error f)
    | (t, .ok (.ok r, s)) => (t, .ok (r, s))

/-- `de/mod.rs:264-269`: `read` (and `from_str`, 278-280). -/
def read {σ α : Type} (dbg : Bool) (V : Visitor σ) (C : Effort σ) (D : Deser σ α) (input : Input) :
    Tally × Except Fault (Except Error α) :=
  match root dbg input.start with
  | (n, .error f) => (.fetches n, .error f)
  | (n, .ok (.error e, _)) => (.fetches n, .ok (.error e))
  | (n, .ok (.ok er, s)) =>
    match runDeser dbg V C D (s.inner.items.length + 1) er s with
    | (t, .error f) => (Tally.add (.fetches n) t, .error f)
    | (t, .ok (.error e, s)) => (Tally.add (.fetches n) t, .ok (.error (e.toError s.stack s.inner.pos)))
    | (t, .ok (.ok a, s)) =>
      match endDoc dbg s with
      | (m, .error f) => ((Tally.add (.fetches n) t).add (.fetches m), .error f)
      | (m, .ok (.error e)) => ((Tally.add (.fetches n) t).add (.fetches m), .ok (.error e))
      | (m, .ok (.ok ())) => ((Tally.add (.fetches n) t).add (.fetches m), .ok (.ok a))

/-- The generated `match find(&name, TABLE)`: names compared (`deserialize.rs:164-224,289,300,344-394,415`). -/
def lookup (name : EName) (table : List (Nat × EName)) : Nat := (find name (table.map Prod.snd)).1

/-- `delegate_element` (`de/mod.rs:897-910`) over the flattened fields: names compared by the visitors that are asked. -/
def delegate (env : Env) (fs : List FState) (n : EName) : List (Nat × Nat) → Nat
  | [] => 0
  | (p, e) :: rest =>
    let w := lookup n (enumTable (variantNames (env.enm e).variants 0))
    match fs[p]? with
    | none => 0
    | some st =>
      match enumElement env e st n with
      | .error _ => w
      | .ok none => w + delegate env fs n rest
      | .ok (some _) => w

/-- Names compared by derived visitors (`deserialize.rs:164-224,285-304,410-435`). -/
def derivedEffort (env : Env) : Effort DState where
  attr v n _ :=
    match v with
    | .strct i _ => lookup n (structTable (attrNames (env.strct i).fields 0))
    | .enm _ _ => 0
  chars _ _ _ := 0
  elem v info :=
    let n := info.name.expanded
    match v with
    | .strct i fs =>
      let fields := (env.strct i).fields
      let w := lookup n (structTable (elemNames fields 0))
      match SX.lookup n (structTable (elemNames fields 0)) with
      | .ok none => w + delegate env fs n (flattens fields 0)
      | _ => w
    | .enm i _ => lookup n (enumTable (variantNames (env.enm i).variants 0))

/-- `ser/mod.rs:330-333`: the loop that tries numbers; how many prefixes it tries. -/
def searchPrefix (m : SMap String) (pfx url : String) : Nat → Nat → Nat × Except Fault (SMap String × String)
  | 0, _ => (0, .error .fuel)
  | fuel + 1, i =>
    match nsPut m (numbered pfx i) url with
    | (m', true) => (1, .ok (m', numbered pfx i))
    | (_, false) =>
      match searchPrefix m pfx url fuel (i + 1) with
      | (n, r) => (n + 1, r)

/-- `ser/mod.rs:319-333`: the prefix of one required mapping. -/
def assignRequired (m : SMap String) (url : String) (e : NsEntry) : Nat × Except Fault (SMap String × String) :=
  let search : Nat × Except Fault (SMap String × String) :=
    if e.requested = "" then searchPrefix m "ns" url (m.length + 1) 1 else searchPrefix m e.requested url (m.length + 1) 2
  if !(e.needsPrefix && e.requested == "") then
    match nsPut m e.requested url with
    | (m', true) => (1, .ok (m', e.requested))
    | (_, false) => (search.1 + 1, search.2)
  else search

/-- `ser/mod.rs:314-334`: the loop over required mappings. -/
def passRequired : SMap String → NsBuilder → Nat × Except Fault (SMap String × NsBuilder)
  | m, [] => (0, .ok (m, []))
  | m, (url, e) :: l =>
    if e.required then
      match assignRequired m url e with
      | (n, .error f) => (n, .error f)
      | (n, .ok (m, p)) =>
        match passRequired m l with
        | (k, .error f) => (n + k, .error f)
        | (k, .ok (m, l)) => (n + k, .ok (m, (url, { e with assigned := some p }) :: l))
    else
      match passRequired m l with
      | (k, .error f) => (k, .error f)
      | (k, .ok (m, l)) => (k, .ok (m, (url, e) :: l))

/-- `ser/mod.rs:337-345`: the loop over inherited mappings. -/
def passInherited : SMap String → NsBuilder → Nat × SMap String × NsBuilder
  | m, [] => (0, m, [])
  | m, (url, e) :: l =>
    if e.required then
      match passInherited m l with
      | (k, m, l) => (k, m, (url, e) :: l)
    else
      match nsPut m e.requested url with
      | (m, true) =>
        match passInherited m l with
        | (k, m, l) => (k + 1, m, (url, { e with assigned := some e.requested }) :: l)
      | (m, false) =>
        match passInherited m l with
        | (k, m, l) => (k + 1, m, (url, e) :: l)

/-- `ser/mod.rs:307-351`: `NamespacesBuilder::finalize`: the prefixes tried. -/
def finalize (b : NsBuilder) : Nat × Except Fault Namespaces :=
  match passRequired [] b with
  | (n, .error f) => (n, .error f)
  | (n, .ok (m, b)) =>
    match passInherited m b with
    | (k, m, b) => (n + k, .ok { byUrl := b, byPrefix := m })

end SX.Cost
