import Verif.Proof.Cut
import Verif.Props.Whole

/-
C67: what arrives when writing fails.
-/
namespace SX

open Spec

/-- C67, for any implementation of `Serialize`: what arrives at a writer that fails is what the document without failures has up to the first write that
fails; if none of its writes fails, all is as without failures; else the result is no success. -/
theorem C67_received (dbg : Bool) (sink : Sink) (name : EName) (attrs : AttrProg) (children : Prog [.writer false]) (s s' : WState)
    (r r' : Except SErr Unit) (h : serializeTo dbg sink name attrs children = .ok (s, r))
    (h' : serializeTo dbg neverFails name attrs children = .ok (s', r')) :
    s.out = (received sink [] s'.out).1 ∧ ((received sink [] s'.out).2 = none → r = r') ∧ ((received sink [] s'.out).2 ≠ none → r ≠ .ok ()) := by
  obtain ⟨⟨es, h1, h2, h3, h4⟩, h5⟩ := Cut.serializeTo_ends dbg sink name attrs children _ _ h h'
  simp only [List.nil_append] at h1 h2 h3 h4
  subst h1
  refine ⟨h2, fun hn => congrArg Prod.snd (h3 hn), fun hn => ?_⟩
  cases hr : (received sink [] s'.out).2 with
  | none => exact absurd hr hn
  | some m => exact h5 _ (h4 m hr)

/-- C67: the first write that fails, without recursion. -/
theorem C67_first (sink : Sink) (before es : List WEvent) :
    (received sink before es = (es, none) ∧ ∀ pre e post, es = pre ++ e :: post → sink (before ++ pre) e = none) ∨
    ∃ pre e post m, es = pre ++ e :: post ∧ received sink before es = (pre, some m) ∧ sink (before ++ pre) e = some m ∧
      ∀ pre' e' post', pre = pre' ++ e' :: post' → sink (before ++ pre') e' = none := by
  induction es generalizing before with
  | nil => exact .inl ⟨rfl, by simp⟩
  | cons x es ih =>
    cases hs : sink before x with
    | some m => exact .inr ⟨[], x, es, m, rfl, by simp [received, hs], by simpa using hs, by simp⟩
    | none =>
      have hpre : ∀ {pre' e' post'} {l : List WEvent}, x :: l = pre' ++ e' :: post' → (∀ pre e post, l = pre ++ e :: post → sink (before ++ [x] ++ pre) e = none) →
          sink (before ++ pre') e' = none := by
        intro pre' e' post' l h hl
        cases pre' with
        | nil =>
          simp only [List.nil_append, List.cons.injEq] at h
          rw [← h.1]
          simpa using hs
        | cons y pre' =>
          simp only [List.cons_append, List.cons.injEq] at h
          have := hl pre' e' post' h.2
          rw [← h.1]
          simpa using this
      rcases ih (before ++ [x]) with ⟨h1, h2⟩ | ⟨pre, e, post, m, h1, h2, h3, h4⟩
      · exact .inl ⟨by simp [received, hs, h1], fun pre e post h => hpre h h2⟩
      · exact .inr ⟨x :: pre, e, post, m, by rw [h1]; rfl, by simp [received, hs, h2], by simpa using h3, fun pre' e' post' h => hpre h h4⟩

/-- C67, for derived types: serialization to a writer that fails ends with that failure, and what arrives is the document up to there; otherwise it ends
as without failures. -/
theorem C67_derived (dbg : Bool) (sink : Sink) (env : Env) (name : EName) (ty : Ty) (v : Val) (hv : HasTy env ty v) (s' : WState) (r' : Except SErr Unit)
    (h' : serializeVal dbg neverFails env name ty v = .ok (s', r')) :
    ∃ s, serializeVal dbg sink env name ty v =
        .ok (s, match (received sink [] s'.out).2 with
          | none => r'
          | some m => .error (.write m)) ∧
      s.out = (received sink [] s'.out).1 := by
  obtain ⟨as, g, hr⟩ := represents_exists hv name
  obtain ⟨⟨s, r⟩, hx, hor⟩ := Cut.strict_document dbg sink name _ _ (strict_children env hr) _ h'
  obtain ⟨⟨es, h1, h2, h3, h4⟩, -⟩ := Cut.serializeTo_ends dbg sink name _ _ _ _ hx h'
  simp only [List.nil_append] at h1 h2 h3 h4
  subst h1
  refine ⟨s, ?_, h2⟩
  cases hm : (received sink [] s'.out).2 with
  | none =>
    cases h3 hm
    exact hx
  | some m =>
    have hp := h4 m hm
    rcases hor with he | ⟨m', k1, k2⟩
    · have hout : s.out = s'.out := by rw [show s = s' from congrArg Prod.fst he]
      have := Cut.received_short sink [] s'.out hm
      rw [← h2, hout] at this
      omega
    · simp only at k1 k2 hp
      rw [k1] at hp
      cases hp
      subst k2
      exact hx

/-- C67: the emitted code of a crate. -/
theorem C67_crate (c : Gen.Crate) (code : Gen.SerEmitted) (env : Env) (ha : Spec.Gen.AcceptedSer c code) (hd : Spec.Gen.DeclaresTypes c env) (dbg : Bool)
    (sink : Sink) (name : EName) (ty : Ty) (v : Val) (hv : HasTy env ty v) (s' : WState) (r' : Except SErr Unit)
    (h' : c.write code dbg neverFails name ty v = .ok (s', r')) :
    ∃ s, c.write code dbg sink name ty v =
        .ok (s, match (received sink [] s'.out).2 with
          | none => r'
          | some m => .error (.write m)) ∧
      s.out = (received sink [] s'.out).1 := by
  rw [(C65_write c code env ha hd dbg neverFails name ty v hv).1] at h'
  rw [(C65_write c code env ha hd dbg sink name ty v hv).1]
  exact C67_derived dbg sink env name ty v hv s' r' h'

/-! ### Cases -/

section
attribute [local semireducible] writeChildren writeField writeVec writeElemFields writeFlattens natDigits

/-- A book with a book, where text cannot be written: two start tags arrive. -/
example : HasTy ExS.env (.strct 1) (ExS.book true [ExS.book true []]) ∧
    ∃ s s', serializeVal true neverFails ExS.env { ns := "urn:d", loc := "Book" } (.strct 1) (ExS.book true [ExS.book true []]) = .ok (s', .ok ()) ∧
      serializeVal true ExW.noText ExS.env { ns := "urn:d", loc := "Book" } (.strct 1) (ExS.book true [ExS.book true []]) =
        .ok (s, .error (.write "disk full")) ∧ s.out = s'.out.take 2 ∧ s'.out.length = 10 ∧ received ExW.noText [] s'.out = (s.out, some "disk full") :=
  ⟨ExS.book_ty _ _ fun v hv => by rw [List.mem_singleton.mp hv]; exact ExS.book_ty _ _ (by simp), _, _, rfl, rfl, rfl, rfl, rfl⟩

/-- An implementation that ignores the failure of text and goes on: nothing more arrives, and the result is no success. -/
example : ∃ s s', serializeTo true ExW.noText (ExW.n "" "r") (.ret (.ok ())) (.text "t" fun _ => .text "u" fun _ => .ret (.ok ())) =
      .ok (s, .error (.write "disk full")) ∧
    serializeTo true neverFails (ExW.n "" "r") (.ret (.ok ())) (.text "t" fun _ => .text "u" fun _ => .ret (.ok ())) = .ok (s', .ok ()) ∧
    s.out.length = 1 ∧ s'.out.length = 4 := ⟨_, _, rfl, rfl, rfl, rfl⟩

/-- For a program that ignores the errors of writing. -/
example := C67_received true ExW.noText (ExW.n "" "r") (.ret (.ok ())) (.text "t" fun _ => .text "u" fun _ => .ret (.ok ())) _ _ _ _ rfl rfl

end

end SX
