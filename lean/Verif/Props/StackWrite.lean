import Verif.Proof.StackWrite
import Verif.Proof.DeriveSerTotal
import Verif.Props.DeriveSer

/-
C93: the stack that writing needs.  `Model/StackWrite.lean` has the functions of the model with counts.
-/
namespace SX
open Spec Stack

/-- Implementations of `Serialize` that leak no writer, if serialization succeeds: there are at a time as many builders and writers as elements are open in the document, or one more
(for a builder that is leaked). -/
theorem C93_document (dbg : Bool) (sink : Sink) (name : EName) (attrs : AttrProg) (children : Prog [.writer false]) (hf : NoForget children) (s : WState)
    (h : serializeTo dbg sink name attrs children = .ok (s, .ok ())) :
    peak 0 s.out ≤ liveTo dbg sink name attrs children ∧ liveTo dbg sink name attrs children ≤ peak 0 s.out + 1 :=
  liveTo_peak dbg sink name attrs children hf s h

/-- Any implementation, also one that goes on after an error: the count is the most handles that there are between two calls, and each call is a part of the run. -/
theorem C93_counted (dbg : Bool) (sink : Sink) {hs : List Handle} (p : Prog hs) (st : HStates hs) (s : WState) :
    (∀ c, Comes dbg sink ⟨hs, p, st, s⟩ c → c.hs.length ≤ live dbg sink p st s ∧ p.run dbg sink st s = c.prog.run dbg sink c.handles c.state) ∧
      ∃ c, Comes dbg sink ⟨hs, p, st, s⟩ c ∧ c.hs.length = live dbg sink p st s :=
  ⟨fun _ h => ⟨live_comes h, comes_run h⟩, live_attained dbg sink p st s⟩

/-- Derived serializers: the elements inside each other, whatever the destination and the configuration do; all of them if serialization succeeds, and that is how deep the
document nests. -/
theorem C93_derived (dbg : Bool) (sink : Sink) (env : Env) (name : EName) (ty : Ty) (v : Val) (hv : HasTy env ty v) :
    ∃ as g, Represents env name ty v as g ∧ liveTo dbg sink name (writeAttributes env ty v) (writeChildren env ty v .ret) ≤ g.depth + 1 ∧
      (AttrsDistinct env → ∀ s, serializeVal dbg sink env name ty v = .ok (s, .ok ()) →
        liveTo dbg sink name (writeAttributes env ty v) (writeChildren env ty v .ret) = g.depth + 1 ∧ peak 0 s.out = g.depth + 1) := by
  obtain ⟨as, g, hr⟩ := represents_exists hv name
  have hle := liveTo_le dbg sink name (writeAttributes env ty v) (writeChildren env ty v .ret) (g.depth + 1) (by omega) (shallow_children env hr)
  refine ⟨as, g, hr, hle, fun hd s h => ?_⟩
  have h' : serializeTo dbg sink name (writeAttributes env ty v) (writeChildren env ty v .ret) = .ok (s, .ok ()) := h
  obtain ⟨es, h1, h2⟩ := serializeTo_asks h'
  rw [derived_asked env hd hr] at h1
  cases h1
  have h3 : peak 0 s.out = g.depth + 1 := by
    rw [(serializeTo_sticky h').out, peak_steps _ _ h2]
    simp only [peakE, peakE_forest]
    omega
  have := (liveTo_peak dbg sink name _ _ (noForget_children env hr) s h').1
  omega

/-- If types can be ranked so that what is inside has a lower rank then no value needs more than that, however large. -/
theorem C93_ranked (env : Env) (rank : Ty → Nat) (h0 : ∀ i, 0 < rank (.strct i) ∧ 0 < rank (.enm i)) (hr : ∀ ty ty', Holds env ty ty' → rank ty' < rank ty)
    (dbg : Bool) (sink : Sink) (name : EName) (ty : Ty) (v : Val) (hv : HasTy env ty v) :
    liveTo dbg sink name (writeAttributes env ty v) (writeChildren env ty v .ret) ≤ rank ty + 1 := by
  obtain ⟨as, g, h, hle, -⟩ := C93_derived dbg sink env name ty v hv
  have : g.depth ≤ rank ty := by
    unfold Represents at h
    cases h with
    | text ht r => simp [EForest.depth]
    | strct hc r => exact depth_ranked env rank h0 hr hc _ (fun x hx y hy => hr _ _ (holds_struct hx hy)) (h0 _).1
    | enm hc r => exact depth_ranked env rank h0 hr hc _ (fun x hx y hy => hr _ _ (holds_variant hx hy)) (h0 _).2
  omega

/-- If a type contains itself then no stack is enough for all its values. -/
theorem C93_recursive (env : Env) (hin : ∀ i, ∃ v, HasTy env (.strct i) v) (hd : AttrsDistinct env)
    (ty : Ty) (hrec : HoldsDeep env ty ty) (hty : ∃ v, HasTy env ty v) (n : Nat) :
    ∃ v, HasTy env ty v ∧ ∀ dbg sink name s, serializeVal dbg sink env name ty v = .ok (s, .ok ()) →
      n < liveTo dbg sink name (writeAttributes env ty v) (writeChildren env ty v .ret) ∧ n < peak 0 s.out := by
  have key : ∃ v, HasTy env ty v ∧ AtLeast env ty v n := by
    induction n with
    | zero =>
      obtain ⟨v, hv⟩ := hty
      exact ⟨v, hv, fun _ _ _ _ => Nat.zero_le _⟩
    | succ n ih =>
      obtain ⟨w, hw, hn⟩ := ih
      exact deep_depth hin hrec w hw n hn
  obtain ⟨v, hv, hn⟩ := key
  refine ⟨v, hv, fun dbg sink name s h => ?_⟩
  obtain ⟨as, g, hr, -, heq⟩ := C93_derived dbg sink env name ty v hv
  obtain ⟨h1, h2⟩ := heq hd s h
  have := hn _ _ _ hr
  omega

section
attribute [local semireducible] writeChildren writeField writeVec writeElemFields writeFlattens

/-- A book within a book within a library: there are four writers at a time, as `n` in the inner book is open. -/
example : ∃ s, serializeVal true ExS.fine ExS.env ExS.libName (.strct 0) ExS.lib = .ok (s, .ok ()) ∧ peak 0 s.out = 4 ∧
    liveTo true ExS.fine ExS.libName (writeAttributes ExS.env (.strct 0) ExS.lib) (writeChildren ExS.env (.strct 0) ExS.lib .ret) = 4 :=
  ⟨_, rfl, rfl, rfl⟩

/-- If writing fails early then there are fewer. -/
example : liveTo true (fun _ _ => some "full") ExS.libName (writeAttributes ExS.env (.strct 0) ExS.lib) (writeChildren ExS.env (.strct 0) ExS.lib .ret) = 1 := rfl

/-- The destination is full, and the implementation goes on after the error and begins another element: never more than two. -/
example : live true (fun _ _ => some "full")
    (.element { ns := "", loc := "a" } (.start (.finish fun r => .ret r) fun _ => .element { ns := "", loc := "b" } (.dropBuilder (.ret (.ok ())))) : Prog [.writer false])
    (.cons (h := .writer false) ({ byUrl := [], byPrefix := [] } : Namespaces) .nil) { out := [], poison := none, steps := [] } = 2 := rfl

/-- An implementation that begins an element and leaks the builder: one more than are open in the document. -/
example : ∃ s, serializeTo true ExS.fine { ns := "", loc := "r" } (.ret (.ok ())) (.element { ns := "", loc := "a" } (.forgetBuilder (.ret (.ok ())))) = .ok (s, .ok ()) ∧
    peak 0 s.out = 1 ∧ liveTo true ExS.fine { ns := "", loc := "r" } (.ret (.ok ())) (.element { ns := "", loc := "a" } (.forgetBuilder (.ret (.ok ())))) = 2 :=
  ⟨_, rfl, rfl, rfl⟩
end

theorem ExS.env_inhabited (i : Nat) : ∃ v, HasTy ExS.env (.strct i) v := by
  rcases i with _ | _ | i
  · exact ⟨_, ExS.lib_ty⟩
  · exact ⟨_, ExS.book_ty true [] (by simp)⟩
  · exact ⟨.strct [], .strct rfl (by simp [ExS.env]) (by simp [ExS.env]) (by simp [ExS.env])⟩

/-- Books contain books: a library can be as deep as one likes, and needs as much stack. -/
example (n : Nat) : ∃ v, HasTy ExS.env (.strct 1) v ∧ ∀ dbg sink name s, serializeVal dbg sink ExS.env name (.strct 1) v = .ok (s, .ok ()) →
    n < liveTo dbg sink name (writeAttributes ExS.env (.strct 1) v) (writeChildren ExS.env (.strct 1) v .ret) ∧ n < peak 0 s.out :=
  C93_recursive ExS.env ExS.env_inhabited ExS.env_distinct (.strct 1)
    (.child (.field (f := ExS.bookFields[1]) (s := { card := .many, ty := .strct 1 }) (by simp [ExS.env, ExS.bookFields]) rfl)) ⟨_, ExS.book_ty true [] (by simp)⟩ n

/-- `R` contains `Mid` contains text: three at most, however many there are. -/
example (dbg : Bool) (sink : Sink) (name : EName) (v : Val) (hv : HasTy ExS.bad (.strct 0) v) :
    liveTo dbg sink name (writeAttributes ExS.bad (.strct 0) v) (writeChildren ExS.bad (.strct 0) v .ret) ≤ 3 := by
  refine C93_ranked ExS.bad (fun | .text _ => 0 | .strct 0 => 2 | .strct _ => 1 | .enm _ => 1) ?_ ?_ dbg sink name (.strct 0) v hv
  · intro i
    rcases i with _ | i <;> simp
  · intro ty ty' h
    cases h with
    | @field i f s hf hk =>
      rcases i with _ | i <;> simp [ExS.bad] at hf <;> rcases hf with rfl | rfl <;> simp at hk <;> subst hk <;> simp
    | variant hw => simp [ExS.bad] at hw
    | @flatten i e f ty hf hk h => rcases i with _ | i <;> simp [ExS.bad] at hf <;> rcases hf with rfl | rfl <;> simp at hk

end SX
