import Verif.Proof.CostSeen
import Verif.Proof.CostOnce
import Verif.Proof.Reader
import Verif.Proof.Onward
import Verif.Props.Context

/-
Errors of documents are reported right after the event that they are about.
-/
namespace SX.Prompt
open Spec

variable {σ : Type} {V : Visitor σ}

theorem noSwallow (hV : Propagating V) : NoSwallow V := by
  intro v info
  have h := hV.elem v info
  cases ha : V.onElem v info with
  | done r => trivial
  | readString k =>
    rw [ha] at h
    intro e v' hc
    obtain ⟨w, hw⟩ := h.1 e
    rw [hw] at hc
    cases hc
  | readTo sub k =>
    rw [ha] at h
    intro sub' e v' hc
    obtain ⟨w, hw⟩ := h.1 sub' e
    rw [hw] at hc
    cases hc

theorem deserNoSwallow {α : Type} {D : Deser σ α} (hD : DeserPropagating D) : DeserNoSwallow D := by
  intro info
  have h := hD info
  cases ha : D info with
  | done r => trivial
  | readString k =>
    rw [ha] at h
    intro e a hc
    rw [show k (.error e) = _ from h.1 e] at hc
    cases hc
  | readTo sub k =>
    rw [ha] at h
    intro sub' e a hc
    rw [show k sub' (.error e) = _ from h.1 sub' e] at hc
    cases hc

theorem attributes_stack (hV : Propagating V) (here : List StackElem) (pos : Pos) (l : List XAttr) (v v' : σ) (e : Error)
    (h : attributes V here pos l v = .ok (v', .error e)) : e.stack = here := by
  induction l generalizing v with
  | nil => cases h
  | cons a l ih =>
    simp only [attributes] at h
    split at h
    · cases h
    · next hx => exact absurd hx (hV.attr _ _ _ _ _)
    · cases h; rfl
    · exact ih _ h

/-- An error that is passed on has the elements down to where reading stopped. -/
theorem content_stack (hV : Propagating V) (f : Forest) : ∀ (path : List StackElem) (v v' : σ) (e : Error) (stop : Stop),
    content V path f v = .ok (v', .error (e, stop)) → e.stack = stop.path := by
  induction f with
  | nil => intro path v v' e stop h; cases h
  | misc m p rest ih => intro path v v' e stop h; exact ih _ _ _ _ _ h
  | chars s c p rest ih =>
    intro path v v' e stop h
    simp only [content] at h
    split at h
    · cases h
    · cases h; rfl
    · exact ih _ _ _ _ _ h
  | elem n as ns p ch ep rest ih ihr =>
    intro path v v' e stop h
    have hp := hV.elem v { name := n, ns, depth := (path ++ [({ name := n, pos := p } : StackElem)]).length }
    simp only [content] at h
    cases ha : V.onElem v { name := n, ns, depth := (path ++ [({ name := n, pos := p } : StackElem)]).length } with
    | done r =>
      rw [ha] at h hp
      dsimp only at h
      split at h
      · cases h
      · cases h
      · next hx => cases hx; exact absurd ⟨_, rfl⟩ (hp _)
      · cases h; rfl
      · exact ihr _ _ _ _ _ h
    | readString k =>
      rw [ha] at h hp
      dsimp only at h
      split at h
      · cases h
      · cases h
      · next hx =>
        cases h
        simp only [Except.ok.injEq, Prod.mk.injEq] at hx
        unfold asText at hx
        split at hx
        · exact absurd ⟨_, hx.1⟩ (hp.2 _ _)
        · obtain ⟨w, hw⟩ := hp.1 (.propagate { kind := .msg (.elementInString _), stack := path ++ [({ name := n, pos := p } : StackElem)] ++ [_], pos := _ })
          dsimp only at hx
          rw [hw] at hx
          obtain ⟨h1, h2⟩ := hx
          cases h1
          rw [← h2]
      · cases h; rfl
      · exact ihr _ _ _ _ _ h
    | readTo sub k =>
      rw [ha] at h hp
      dsimp only at h
      cases hat : attributes V (path ++ [({ name := n, pos := p } : StackElem)]) p as sub with
      | error x => rw [hat] at h; cases h
      | ok r =>
        obtain ⟨sub1, r⟩ := r
        rw [hat] at h
        cases r with
        | error e0 =>
          have hs := attributes_stack hV _ _ _ _ _ _ hat
          obtain ⟨w, hw⟩ := hp.1 sub1 (.propagate e0)
          simp only [hw] at h
          cases h
          exact hs
        | ok u =>
          dsimp only at h
          cases hc : content V (path ++ [({ name := n, pos := p } : StackElem)]) ch sub1 with
          | error x => rw [hc] at h; cases h
          | ok r =>
            obtain ⟨sub2, r⟩ := r
            rw [hc] at h
            cases r with
            | error e0 =>
              obtain ⟨e0, stop0⟩ := e0
              have hs := ih _ _ _ _ _ hc
              obtain ⟨w, hw⟩ := hp.1 sub2 (.propagate e0)
              simp only [hw] at h
              cases h
              exact hs
            | ok u =>
              dsimp only at h
              split at h
              · cases h
              · cases h
              · next hx =>
                simp only [Except.ok.injEq, Prod.mk.injEq] at hx
                exact absurd ⟨_, hx.1⟩ (hp.2 _ _ _)
              · cases h; rfl
              · exact ihr _ _ _ _ _ h

theorem deser_stack {α : Type} {D : Deser σ α} (hV : Propagating V) (hD : DeserPropagating D) (path : List StackElem) (x : Elem) (e : Error) (stop : Stop)
    (h : deser V D path x = .ok (.error (.propagate e), stop)) : e.stack = stop.path := by
  have hp := hD { name := x.name, ns := x.ns, depth := (path ++ [({ name := x.name, pos := x.pos } : StackElem)]).length }
  simp only [deser] at h
  cases ha : D { name := x.name, ns := x.ns, depth := (path ++ [({ name := x.name, pos := x.pos } : StackElem)]).length } with
  | done r =>
    rw [ha] at h hp
    dsimp only at h
    split at h
    · cases h
    · cases h
    · next hx =>
      cases h
      simp only [Except.ok.injEq, Prod.mk.injEq] at hx
      exact absurd hx.1 (hp _)
  | readString k =>
    rw [ha] at h hp
    dsimp only at h
    split at h
    · cases h
    · cases h
    · next hx =>
      cases h
      simp only [Except.ok.injEq, Prod.mk.injEq] at hx
      unfold asText at hx
      split at hx
      · exact absurd hx.1 (hp.2 _ _)
      · dsimp only at hx
        rw [show k (.error _) = _ from hp.1 _] at hx
        obtain ⟨h1, h2⟩ := hx
        cases h1
        rw [← h2]
  | readTo sub k =>
    rw [ha] at h hp
    dsimp only at h
    cases hat : attributes V (path ++ [({ name := x.name, pos := x.pos } : StackElem)]) x.pos x.attrs sub with
    | error f => rw [hat] at h; cases h
    | ok r =>
      obtain ⟨sub1, r⟩ := r
      rw [hat] at h
      cases r with
      | error e0 =>
        have hs := attributes_stack hV _ _ _ _ _ _ hat
        simp only [show k sub1 (.error (.propagate e0)) = _ from hp.1 sub1 _] at h
        cases h
        exact hs
      | ok u =>
        dsimp only at h
        cases hc : content V (path ++ [({ name := x.name, pos := x.pos } : StackElem)]) x.children sub1 with
        | error f => rw [hc] at h; cases h
        | ok r =>
          obtain ⟨sub2, r⟩ := r
          rw [hc] at h
          cases r with
          | error e0 =>
            obtain ⟨e0, stop0⟩ := e0
            have hs := content_stack hV _ _ _ _ _ _ hc
            simp only [show k sub2 (.error (.propagate e0)) = _ from hp.1 sub2 _] at h
            cases h
            exact hs
          | ok u =>
            dsimp only at h
            split at h
            · cases h
            · cases h
            · next hx =>
              cases h
              simp only [Except.ok.injEq, Prod.mk.injEq] at hx
              exact absurd hx.1 (hp.2 _ _ _)

theorem openedBy_miscs (p : Pos) (l : List (Misc × Pos)) : openedBy ((.startDocument, p) :: miscEvents l) = [] := by
  have key : ∀ b : List StackElem, (miscEvents l).foldl opened b = b := by
    intro b
    induction l with
    | nil => rfl
    | cons m l ih => exact ih
  exact key []

/-- The reader at the root. -/
def inRoot (d : Doc) : RState :=
  { inner := { pos := d.root.pos, items := d.root.children.events ++ (.endElement d.root.name, d.root.endPos) :: miscEvents d.epilog, final := .eof, finalPos := d.eofPos },
    depth := 1, stack := [⟨d.root.name, d.root.pos⟩] }

theorem root_doc (dbg : Bool) (d : Doc) : root dbg d.input.start = .ok (.ok { ns := d.root.ns, attrs := d.root.attrs, stackPos := 0 }, inRoot d) := by
  unfold root
  simp only [Doc.input, Input.start]
  rw [next_miscs dbg d.prolog _ _ rfl]
  have hn : next dbg { inner := { pos := d.startPos, items := ((.startElement d.root.name d.root.attrs d.root.ns, d.root.pos) ::
      (d.root.children.events ++ (.endElement d.root.name, d.root.endPos) :: miscEvents d.epilog)), final := .eof, finalPos := d.eofPos }, depth := 0, stack := [] }
      = .ok (.ok (.start d.root.attrs d.root.ns, d.root.pos), inRoot d) := by
    unfold next
    simp [nextLoop, inRoot]
  simp only
  rw [hn]

theorem inRoot_good (d : Doc) : Context.Good d.input ((.startDocument, d.startPos) :: miscEvents d.prolog ++ [(.startElement d.root.name d.root.attrs d.root.ns, d.root.pos)]) (inRoot d) where
  items := by simp [Doc.input, inRoot]
  final := rfl
  finalPos := rfl
  pos := .inl ⟨_, _, rfl⟩
  depth := by rw [Context.openedBy_append, openedBy_miscs]; rfl
  stack := by rw [Context.openedBy_append, openedBy_miscs]; rfl

/-- The events up to the one that an error is about. -/
structure Found (i : Input) (E : Error) (cc : List (XEvent × Pos)) : Prop where
  items : ∃ rest, i.items = cc ++ rest
  stack : E.stack = openedBy cc ∨ ∃ c n p, cc = c ++ [(.endElement n, p)] ∧ E.stack = openedBy c

theorem doc_prompt {α : Type} (dbg : Bool) {D : Deser σ α} (hV : Propagating V) (hD : DeserPropagating D) (d : Doc) (E : Error) (h : read dbg V D d.input = .ok (.error E)) :
    ∃ cc, Found d.input E cc ∧ ∀ i : Input, (∃ more, i.items = cc ++ more) → read dbg V D i = .ok (.error E) := by
  have H : dbg = false ∨ NoSwallow V ∧ DeserNoSwallow D := .inr ⟨noSwallow hV, deserNoSwallow hD⟩
  obtain ⟨I, hb, hB⟩ := C90_propagating V D hV hD (Occurred d.input)
  have h1 := runDeser_spec dbg V D H [] d.root (miscEvents d.epilog) ((inRoot d).inner.items.length + 1) (inRoot d) ⟨rfl, rfl⟩ rfl rfl (by simp [inRoot])
  have h0 := h
  unfold read at h0
  rw [root_doc] at h0
  simp only at h0
  revert h1
  cases hd : deser V D [] d.root with
  | error f =>
    intro h1
    simp only [List.length_nil] at h1
    rw [h1] at h0
    cases h0
  | ok r =>
    obtain ⟨r, stop⟩ := r
    rintro ⟨s', h1, h2, h3, h4, h5⟩
    simp only [List.length_nil] at h1
    obtain ⟨-, cc, hcc, -⟩ := Context.runDeser_context dbg (.inr ⟨noSwallow hV, deserNoSwallow hD⟩) hb hB _ (inRoot_good d) (openedBy_miscs _ _) rfl h1
    rw [h1] at h0
    cases r with
    | ok a =>
      exfalso
      have := read_spec dbg V D H d
      rw [h] at this
      unfold readDoc at this
      rw [hd] at this
      cases this
    | error e =>
      simp only [Except.ok.injEq, Except.error.injEq] at h0
      have hst : E.stack = s'.stack := by
        cases e with
        | wrap e => rw [← h0]; rfl
        | propagate e =>
          rw [h2, ← deser_stack hV hD _ _ _ _ hd, ← h0]
          rfl
      have C : Cost.Effort σ := ⟨fun _ _ _ => 0, fun _ _ _ => 0, fun _ _ => 0⟩
      have hcount : (Cost.read dbg V C D d.input).1.fetched = cc.length := by
        have hr := Cost.root_value dbg d.input.start
        rw [root_doc] at hr
        generalize hz : Cost.root dbg d.input.start = z at hr
        obtain ⟨n, z⟩ := z
        cases hr
        have ho := Cost.root_once dbg d.input.start n _ _ rfl hz
        have hv := Cost.runDeser_value dbg V C D ((inRoot d).inner.items.length + 1) { ns := d.root.ns, attrs := d.root.attrs, stackPos := 0 } (inRoot d)
        rw [h1] at hv
        generalize hy : Cost.runDeser dbg V C D ((inRoot d).inner.items.length + 1) { ns := d.root.ns, attrs := d.root.attrs, stackPos := 0 } (inRoot d) = y at hv
        obtain ⟨t, y⟩ := y
        cases hv
        have ho' := Cost.runDeser_once dbg V C D _ _ _ _ _ _ rfl hy
        have : (Cost.read dbg V C D d.input).1.fetched = n + t.fetched := by
          simp only [Cost.read, hz, hy]
          rfl
        rw [this]
        have a1 := ho.fetched
        have a2 := ho'.fetched
        have a3 := congrArg List.length hcc.items
        simp only [List.length_append] at a3
        have a4 : d.input.start.inner.items.length = d.input.items.length := rfl
        omega
      refine ⟨cc, ⟨⟨_, hcc.items⟩, ?_⟩, ?_⟩
      · rw [hst]
        exact hcc.stack
      · rintro i ⟨more, hi⟩
        have hs := Cost.read_seen dbg V C D d.input i (.error E) (by rw [Cost.read_value]; exact h) (by rw [hcount, hcc.items]; simp)
          (by rw [hcount, hi, hcc.items]; simp)
        rw [← Cost.read_value dbg V C D, hs, Cost.read_value]
        exact h

end SX.Prompt
