import Verif.Proof.DocumentedSer
import Verif.Props.DeriveFirst
import Verif.Props.DeriveSer

/-
C88: what the documentation says about mappings of namespaces and about names of types holds.
-/
namespace SX
open Spec

/-- C88: the fields of `Namespace` are what their comments say (`ser/mod.rs:447-471,259-262`), in every builder that occurs and when its prefixes
are chosen.  In builders no prefix is assigned, and what needs a prefix is required.  Afterwards a prefix is missing only if the mapping is not
required; a prefix that is needed is not empty; a mapping that is not required keeps the prefix that was requested or is dropped, and is dropped
exactly if a required one was given that prefix; a prefix is given to one URL only; and the two tables say the same. -/
theorem C88_mappings (dbg : Bool) (b : NsBuilder) (hb : Reached dbg b) :
    (∀ u e, SMap.get b u = some e → e.assigned = none ∧ (e.needsPrefix = true → e.required = true)) ∧
    ∃ n, b.finalize = .ok n ∧
      (∀ u, (SMap.get b u).isSome = (n.byUrl.get u).isSome) ∧
      (∀ u e, n.byUrl.get u = some e → SMap.get b u = some { e with assigned := none } ∧
        (e.assigned = none → e.required = false) ∧
        (e.needsPrefix = true → ∃ p, e.assigned = some p ∧ p ≠ "") ∧
        (e.required = false → (e.assigned = some e.requested ∨ e.assigned = none) ∧
          (e.assigned = none ↔ ∃ v e', n.byUrl.get v = some e' ∧ e'.required = true ∧ e'.assigned = some e.requested))) ∧
      (∀ u v e e' p, n.byUrl.get u = some e → n.byUrl.get v = some e' → e.assigned = some p → e'.assigned = some p → u = v) ∧
      ∀ p u, n.byPrefix.get p = some u ↔ ∃ e, n.byUrl.get u = some e ∧ e.assigned = some p := by
  have hi := DocSer.reached_inv hb
  refine ⟨fun u e he => ⟨hi.ok.fresh _ (SMap.get_mem he), hi.needs u e he⟩, ?_⟩
  obtain ⟨n, h1, h2, h3⟩ := finalize_spec b hi.ok
  have hget := fun u => finalize_get h3 u
  have hone : ∀ u v e e' p, n.byUrl.get u = some e → n.byUrl.get v = some e' → e.assigned = some p → e'.assigned = some p → u = v := by
    intro u v e e' p a1 a2 a3 a4
    have b1 := (h2.iff p u).mpr ⟨e, a1, a3⟩
    rw [(h2.iff p v).mpr ⟨e', a2, a4⟩] at b1
    cases b1
    rfl
  refine ⟨n, h1, fun u => by rw [hget]; simp, ?_, hone, h2.iff⟩
  intro u e he
  have hbu : SMap.get b u = some { e with assigned := none } := by rw [hget, he]; rfl
  refine ⟨hbu, ?_, ?_, ?_⟩
  · intro ha
    cases hr : e.required with
    | false => rfl
    | true =>
      obtain ⟨p, hp⟩ := h2.required u e he hr
      rw [ha] at hp
      cases hp
  · intro hn
    have hr : e.required = true := hi.needs u { e with assigned := none } hbu hn
    obtain ⟨p, hp⟩ := h2.required u e he hr
    exact ⟨p, hp, fun h0 => h2.needs u e he hr hn (by rw [hp, h0])⟩
  · intro hr
    have hfate := DocSer.finalize_fate hi.ok h1 u e he hr
    refine ⟨hfate.imp_right And.left, fun ha => ?_, fun ⟨v, e', k1, k2, k3⟩ => ?_⟩
    · rcases hfate with h | ⟨-, v, hv⟩
      · rw [ha] at h; cases h
      · obtain ⟨e', k1, k2⟩ := (h2.iff _ _).mp hv
        refine ⟨v, e', k1, ?_, k2⟩
        cases hr' : e'.required with
        | true => rfl
        | false =>
          exfalso
          have hq : e'.requested = e.requested := by
            rcases DocSer.finalize_fate hi.ok h1 v e' k1 hr' with h | ⟨h, -⟩
            · rw [k2] at h; exact (Option.some.inj h).symm
            · rw [k2] at h; cases h
          have := hi.apart v u { e' with assigned := none } { e with assigned := none } (by rw [hget, k1]; rfl) hbu hr' hr hq
          subst this
          rw [he] at k1
          cases k1
          rw [ha] at k2
          cases k2
    · rcases hfate with h | ⟨h, -⟩
      · have := hone u v e e' _ he k1 h k3
        subst this
        rw [he] at k1
        cases k1
        rw [hr] at k2
        cases k2
      · exact h

namespace ExN

/-- The root maps `p` to `urn:a` and `q` to `urn:b`; a child in no namespace maps `p` to `urn:c`. -/
def rootN : NsBuilder := [("urn:a", ⟨"p", none, true, false⟩), ("urn:b", ⟨"q", none, true, false⟩)]
def rootF : Namespaces := { byUrl := [("urn:a", ⟨"p", some "p", true, false⟩), ("urn:b", ⟨"q", some "q", true, false⟩)], byPrefix := [("p", "urn:a"), ("q", "urn:b")] }
def childN : NsBuilder := [("urn:a", ⟨"p", none, false, false⟩), ("urn:b", ⟨"q", none, false, false⟩), ("urn:c", ⟨"p", none, true, false⟩)]

theorem rootN_reached : Reached true rootN := .«namespace» _ _ "q" "urn:b" (.«namespace» _ _ "p" "urn:a" .root rfl) rfl
theorem childN_reached : Reached true childN := .«namespace» _ _ "p" "urn:c" (.child rootN rootF "" rootN_reached rfl) rfl

/-- The mapping of `urn:a` is dropped, that of `urn:b` stays. -/
example : ∃ n, childN.finalize = .ok n ∧ n.byUrl.get "urn:a" = some ⟨"p", none, false, false⟩ ∧ n.byUrl.get "urn:b" = some ⟨"q", some "q", false, false⟩ ∧
    ∃ v e', n.byUrl.get v = some e' ∧ e'.required = true ∧ e'.assigned = some "p" := by
  obtain ⟨-, n, h1, -, h2, -⟩ := C88_mappings true childN childN_reached
  have hn : childN.finalize = .ok { byUrl := [("urn:a", ⟨"p", none, false, false⟩), ("urn:b", ⟨"q", some "q", false, false⟩), ("urn:c", ⟨"p", some "p", true, false⟩)], byPrefix := [("p", "urn:c"), ("q", "urn:b")] } := rfl
  rw [hn] at h1
  cases h1
  exact ⟨_, rfl, rfl, rfl, ((h2 "urn:a" _ rfl).2.2.2 rfl).2.mp rfl⟩

end ExN

/-- C88: what type-level `rename`, `prefix`, `namespace` and `default_namespace` say makes no difference for reading (`lib.rs:208-224`), the expanded
names of fields and variants being the same: every input gives the same value, error or panic. -/
theorem C88_read_names (dbg : Bool) (env : Env) (rs re : Nat → DName) (ms me : Nat → List (String × String)) (ty : Ty) (i : Input) :
    readTy dbg (withMappings (withRoots env rs re) ms me) ty i = readTy dbg env ty i :=
  DocSer.readTy_same (env := env) (env' := withMappings (withRoots env rs re) ms me) ⟨fun _ => rfl, fun _ => rfl, fun _ => rfl⟩ dbg ty i

/-- C88: type-level `rename` and `prefix` are used for the root element only, and only when it is written by its default name (`lib.rs:208-215`):
given the name, every value of every type is written the same, and the default name is the one declared. -/
theorem C88_write_names (dbg : Bool) (sink : Sink) (env : Env) (rs re : Nat → DName) (name : EName) (ty : Ty) (v : Val) :
    serializeVal dbg sink (withRoots env rs re) name ty v = serializeVal dbg sink env name ty v ∧
    ∀ i, rootName (withRoots env rs re) (.strct i) = some (rs i).expanded ∧ rootName (withRoots env rs re) (.enm i) = some (re i).expanded := by
  refine ⟨?_, fun _ => ⟨rfl, rfl⟩⟩
  unfold serializeVal
  rw [DocSer.writeAttributes_roots, DocSer.writeChildren_roots]

/-- C88: the name of the root element of a document is not looked at (`lib.rs:210-213`): another one gives the same value, or the same error, with
the other name at the bottom of its stack. -/
theorem C88_root_name (dbg : Bool) (env : Env) (hok : EnvOk env) (ty : Ty) (d d' : Doc) (h : d'.root = { d.root with name := d'.root.name }) :
    readTy dbg env ty d'.input = match readTy dbg env ty d.input with
      | .ok (.error E) => .ok (.error { E with stack := { name := d'.root.name, pos := d.root.pos } :: E.stack.tail })
      | r => r := by
  have hb : d'.root.body env = d.root.body env := by rw [h]; rfl
  rcases readDoc_first env hok ty d with ⟨v, h1, h2, -⟩ | ⟨df, h1, h2, -⟩
  · rw [(C18_value dbg env hok ty d v).mpr h2]
    exact (C18_value dbg env hok ty d' v).mpr (hb ▸ h2)
  · rw [(C44_first dbg env hok ty d _).mpr ⟨df, h2, rfl⟩, (C44_first dbg env hok ty d' _).mpr ⟨df, hb ▸ h2, rfl⟩]
    dsimp only
    rw [h]
    rfl

/-- `<s>` in place of `<r>` in the document of a record. -/
def ExN.sDoc : Doc := { Ex.recDoc with root := { Ex.recDoc.root with name := Ex.q "s" } }

example : Ex.recDoc.root.name ≠ ExN.sDoc.root.name ∧ ∃ v, readTy true Ex.env (.strct 0) Ex.recDoc.input = .ok (.ok v) ∧
    readTy true Ex.env (.strct 0) ExN.sDoc.input = .ok (.ok v) := by
  have hv : readTy true Ex.env (.strct 0) Ex.recDoc.input = .ok (.ok _) := (C18_value true Ex.env Ex.env_ok (.strct 0) Ex.recDoc _).mpr rfl
  refine ⟨by decide, _, hv, ?_⟩
  rw [C88_root_name true Ex.env Ex.env_ok (.strct 0) Ex.recDoc ExN.sDoc rfl, hv]

/-- The record without content lacks the same field, whatever its name. -/
example (d : Doc) (hd : d.root = { (Ex.docOf [] .nil).root with name := Ex.q "s" }) : ∃ E, readTy true Ex.env (.strct 0) (Ex.docOf [] .nil).input = .ok (.error E) ∧
    readTy true Ex.env (.strct 0) d.input = .ok (.error { E with stack := [{ name := Ex.q "s", pos := Ex.p 2 }] }) := by
  have hv : readTy true Ex.env (.strct 0) (Ex.docOf [] .nil).input = .ok (.error _) := (C44_first true Ex.env Ex.env_ok (.strct 0) (Ex.docOf [] .nil) _).mpr ⟨_, rfl, rfl⟩
  refine ⟨_, hv, ?_⟩
  rw [C88_root_name true Ex.env Ex.env_ok (.strct 0) (Ex.docOf [] .nil) d (by rw [hd]), hv, hd]
  rfl

/-- Other roots and mappings than those of `Ex.env`: the same is read; and what `ExS.env` writes as `x` is the same. -/
example : readTy true (withMappings (withRoots Ex.env (fun _ => ⟨some "urn:z", "z"⟩) fun _ => ⟨none, "y"⟩) (fun _ => [("z", "urn:z")]) fun _ => []) (.strct 0) Ex.recDoc.input =
    readTy true Ex.env (.strct 0) Ex.recDoc.input := C88_read_names ..

example : rootName (withRoots ExS.env (fun _ => ⟨some "urn:z", "z"⟩) fun _ => ⟨none, "y"⟩) (.strct 0) = some ⟨"urn:z", "z"⟩ ∧
    rootName ExS.env (.strct 0) ≠ some ⟨"urn:z", "z"⟩ :=
  ⟨((C88_write_names true (fun _ _ => none) ExS.env _ _ ⟨"", "x"⟩ (.strct 0) (.strct [])).2 0).1, by decide⟩

end SX
