import Verif.Props.Typed
import Verif.Props.StackWrite
import Verif.Proof.Copy

/-! # C98: copying a document -/
namespace SX
open Spec Stack Copy

/-- **C98**. A document that is read as a derived type and written again has no more in it than it had, apart from declared defaults: whatever an
element and an attribute count (`a` and `b`), and however the configuration (`dbg`) and the destination (`sink`) are, if the defaults of no struct
count more than `e` then the new document counts at most what the old one does with `e` more for each element. -/
theorem C98_copy (dbg dbg' : Bool) (sink : Sink) (env : Env) (hok : EnvOk env) (hd : DefaultsTyped env) (a b e : Nat) (hw : DefaultsWeigh env a b e)
    (ty : Ty) (d : Doc) (v : Val) (h : readTy dbg env ty d.input = .ok (.ok v)) (name : EName) (s : WState)
    (hs : serializeVal dbg' sink env name ty v = .ok (s, .ok ())) : written a b s.out ≤ d.root.weigh (a + e) b := by
  obtain ⟨as, g, hr⟩ := represents_exists (C64_hasTy (C64_read dbg env hok hd ty d v h)) name
  have h' : serializeTo dbg' sink name (writeAttributes env ty v) (writeChildren env ty v .ret) = .ok (s, .ok ()) := hs
  obtain ⟨es, h1, h2⟩ := serializeTo_asks h'
  rw [derived_asked env hok.attrs hr] at h1
  cases h1
  have h3 := (attrsInv dbg').serializeTo (AttrProg.Mappings.trivial _) (Prog.Mappings.trivial _) h'
  rw [(serializeTo_sticky h').out, written_steps a b _ _ h2 h3]
  simp only [weighE, weighE_forest]
  have := represents_weigh hok hw d.root ty v ((C18_value dbg env hok ty d v).mp h) name as g hr
  omega

/-- **C98**. Without declared defaults: no more elements than were there, and no more attributes. -/
theorem C98_no_defaults (dbg dbg' : Bool) (sink : Sink) (env : Env) (hok : EnvOk env) (hd : ∀ i, ∀ f ∈ (env.strct i).fields, f.default = none)
    (ty : Ty) (d : Doc) (v : Val) (h : readTy dbg env ty d.input = .ok (.ok v)) (name : EName) (s : WState)
    (hs : serializeVal dbg' sink env name ty v = .ok (s, .ok ())) :
    written 1 0 s.out ≤ d.root.weigh 1 0 ∧ written 0 1 s.out ≤ d.root.weigh 0 1 := by
  have ht : DefaultsTyped env := ⟨fun i f _ d hf _ h => by simp [hd i f hf] at h, fun i f _ _ d hf _ h => by simp [hd i f hf] at h⟩
  have hw : ∀ a b, DefaultsWeigh env a b 0 := by
    intro a b i
    refine ⟨fun _ => 0, fun f hf d hd' => by simp [hd i f hf] at hd', ?_⟩
    have : ((env.strct i).fields.filter fun f => f.default.isSome) = [] := List.filter_eq_nil_iff.mpr fun f hf => by simp [hd i f hf]
    simp [this]
  exact ⟨C98_copy dbg dbg' sink env hok ht 1 0 0 (hw 1 0) ty d v h name s hs, C98_copy dbg dbg' sink env hok ht 0 1 0 (hw 0 1) ty d v h name s hs⟩

/-- **C98**, the counts: of everything the parser reports, and of everything that is written. -/
theorem C98_counts (a b : Nat) :
    (∀ d : Doc, given a b d.input.items = d.root.weigh a b) ∧
    ∀ out : List WEvent, written a b out = (out.map fun e => match e with
      | .start _ as _ => a + b * as.length
      | _ => 0).sum := by
  constructor
  · intro d
    have h : ∀ x l, given a b (x :: l) = given a b [x] + given a b l := fun x l => given_append a b [x] l
    simp only [Doc.input]
    rw [h, given_append, given_misc, h (.startElement .., _), given_append, given_forest, h _ (miscEvents _), given_misc]
    simp only [given, List.map_cons, List.map_nil, List.sum_cons, List.sum_nil, Elem.weigh]
    omega
  · intro out
    induction out with
    | nil => rfl
    | cons e out ih => cases e <;> simp [written, ih]

/-- **C98**. Nor are elements deeper inside each other than they were, apart from what is in defaults; and so writers at a time. -/
theorem C98_depth (dbg dbg' : Bool) (sink : Sink) (env : Env) (hok : EnvOk env) (hd : DefaultsTyped env) (e : Nat) (hw : DefaultsDeep env e)
    (ty : Ty) (d : Doc) (v : Val) (h : readTy dbg env ty d.input = .ok (.ok v)) (name : EName) :
    liveTo dbg' sink name (writeAttributes env ty v) (writeChildren env ty v .ret) ≤ d.root.children.depth + 1 + e ∧
    ∀ s, serializeVal dbg' sink env name ty v = .ok (s, .ok ()) → peak 0 s.out ≤ d.root.children.depth + 1 + e := by
  obtain ⟨as, g, hr, h1, h2⟩ := C93_derived dbg' sink env name ty v (C64_hasTy (C64_read dbg env hok hd ty d v h))
  have h3 := represents_low hw d.root ty v ((C18_value dbg env hok ty d v).mp h) name as g hr
  refine ⟨by omega, fun s hs => ?_⟩
  have := (h2 hok.attrs s hs).2
  omega

/-! ### Examples -/

namespace ExC

/-- `<r z="1"><zzz/><x/><a/><a/></r>`; as `struct Two`, the second `a` and what is unknown are not there any more. -/
def two : Doc := Ex.docOf [{ name := Ex.q "z", value := "1" }]
  (Ex.empt (Ex.q "zzz") (Ex.empt (Ex.q "x") (Ex.empt (Ex.q "a") (Ex.empt (Ex.q "a") .nil))))

theorem no_defaults (i : Nat) : ∀ f ∈ (Ex.env.strct i).fields, f.default = none := by
  intro f hf
  simp only [Ex.env] at hf
  split at hf <;> simp only [Ex.recFields, Ex.subFields, Ex.twoFields, List.mem_cons, List.not_mem_nil, or_false] at hf
  · rcases hf with rfl | rfl | rfl | rfl | rfl <;> rfl
  · subst hf; rfl
  · rcases hf with rfl | rfl <;> rfl

open ExR in
/-- The one default there, `Some(true)`, is written as one element without attributes. -/
theorem one_weigh (a b : Nat) : DefaultsWeigh ExR.one a b a := by
  intro i
  refine ⟨fun _ => a, ?_, ?_⟩
  · intro f hf d hd
    simp only [ExR.one, ExR.env] at hf
    split at hf <;> simp only [ExS.libFields, ExS.bookFields, twoFields, optFields, List.mem_cons, List.not_mem_nil, or_false] at hf
    · rcases hf with rfl | rfl | rfl | rfl | rfl | rfl <;> simp at hd
    · rcases hf with rfl | rfl <;> simp at hd
    · rcases hf with rfl | rfl <;> simp at hd
    · rcases hf with rfl | rfl <;> simp at hd
      subst hd
      intro g hg
      simp only [fieldItems, valuesOf, List.map_cons, List.map_nil] at hg
      cases hg with
      | text ht r => cases r; simp [EForest.weigh]
  · simp only [ExR.one, ExR.env]
    split <;> simp [ExS.libFields, ExS.bookFields, twoFields, optFields]

/-- It has no elements inside. -/
theorem one_deep : DefaultsDeep ExR.one 1 := by
  intro i f hf s d _ hd g hg
  simp only [ExR.one, ExR.env] at hf
  split at hf <;> simp only [ExS.libFields, ExS.bookFields, ExR.twoFields, ExR.optFields, List.mem_cons, List.not_mem_nil, or_false] at hf
  · rcases hf with rfl | rfl | rfl | rfl | rfl | rfl <;> simp at hd
  · rcases hf with rfl | rfl <;> simp at hd
  · rcases hf with rfl | rfl <;> simp at hd
  · rcases hf with rfl | rfl <;> simp at hd
    rename_i hk
    simp only [Kind.element.injEq] at hk
    subst hd hk
    simp only [fieldItems, valuesOf, List.map_cons, List.map_nil] at hg
    cases hg with
    | text ht r => cases r; simp [EForest.depth]

/-- `<x:Opt><x:s> </x:s></x:Opt>` -/
def opt : Doc := ExR.optDoc (ExR.inX "s" (.chars " " true ⟨1, 6⟩ .nil) .nil)

end ExC

section
attribute [local semireducible] writeChildren writeField writeVec writeElemFields writeFlattens

example : ∃ v s, readTy true Ex.env (.strct 2) ExC.two.input = .ok (.ok v) ∧ serializeVal true ExS.fine Ex.env ⟨"", "r"⟩ (.strct 2) v = .ok (s, .ok ()) ∧
    peak 0 s.out = 2 ∧ written 1 0 s.out = 3 ∧ ExC.two.root.weigh 1 0 = 5 ∧ written 0 1 s.out = 0 ∧ ExC.two.root.weigh 0 1 = 1 := ⟨_, _, rfl, rfl, rfl, rfl, rfl, rfl, rfl⟩

/-- A declared default is written though it was not there: three elements instead of two.  Four would be allowed. -/
example : ∃ v s, readTy true ExR.one (.strct 3) ExC.opt.input = .ok (.ok v) ∧
    serializeVal true ExS.fine ExR.one ⟨"urn:x", "Opt"⟩ (.strct 3) v = .ok (s, .ok ()) ∧ DefaultsTyped ExR.one ∧
    written 1 0 s.out = 3 ∧ ExC.opt.root.weigh 1 0 = 2 ∧ ExC.opt.root.weigh (1 + 1) 0 = 4 := ⟨_, _, rfl, rfl, ExR.one_typed, rfl, rfl, rfl⟩

/-- The theorems for these two. -/
example : ∃ s, serializeVal true ExS.fine Ex.env ⟨"", "r"⟩ (.strct 2) (.strct [.enm 0 none, .enm 0 none]) = .ok (s, .ok ()) ∧
    written 1 0 s.out ≤ 5 ∧ written 0 1 s.out ≤ 1 :=
  ⟨_, rfl, C98_no_defaults true true ExS.fine Ex.env Ex.env_ok ExC.no_defaults (.strct 2) ExC.two _ rfl ⟨"", "r"⟩ _ rfl⟩

example := C98_depth true true ExS.fine ExR.one ExR.one_ok ExR.one_typed 1 ExC.one_deep (.strct 3) ExC.opt _ rfl ⟨"urn:x", "Opt"⟩
end

end SX
