import Verif.Proof.Reader
import Verif.Spec.Errors

namespace SX
open Spec

theorem attributes_ok {σ : Type} {V : Visitor σ} {here : List StackElem} {pos : Pos} (l : List XAttr) (v v' : σ)
    (h : attributes V here pos l v = .ok (v', .ok ())) : AttrsTo V l v v' := by
  induction l generalizing v with
  | nil => unfold attributes at h; cases h; exact .nil
  | cons a l ih =>
    unfold attributes at h
    split at h
    · cases h
    · cases h
    · cases h
    · rename_i hh; exact .cons hh (ih _ h)

theorem attributes_err {σ : Type} {V : Visitor σ} (P : Propagating V) {here : List StackElem} {pos : Pos} (l : List XAttr) (v v' : σ)
    (E : Error) (h : attributes V here pos l v = .ok (v', .error E)) :
    ∃ e, AttrFails V l v e ∧ E = { kind := .deserializer e, stack := here, pos } := by
  induction l generalizing v with
  | nil => unfold attributes at h; cases h
  | cons a l ih =>
    unfold attributes at h
    split at h
    · cases h
    · rename_i hh; exact absurd hh (P.attr _ _ _ _ _)
    · rename_i hh; cases h; exact ⟨_, .here hh, rfl⟩
    · rename_i hh
      obtain ⟨e, h1, h2⟩ := ih _ h
      exact ⟨e, .later hh h1, h2⟩

theorem content_raised {σ : Type} (V : Visitor σ) (P : Propagating V) (f : Forest) (path : List StackElem) (v v' : σ)
    (E : Error) (stop : Stop) (h : content V path f v = .ok (v', .error (E, stop))) : RaisedIn V path f v E := by
  induction f generalizing path v v' E stop with
  | nil => unfold content at h; cases h
  | misc m p rest ih =>
    simp only [content] at h
    have := ih path v v' E stop h
    exact .later (pre := .misc m p .nil) (v' := v) rfl this
  | chars s cd p rest ih =>
    simp only [content] at h
    split at h
    · cases h
    · rename_i hh; cases h; exact .text hh
    · rename_i v1 hh
      have := ih path v1 v' E stop h
      refine .later (pre := .chars s cd p .nil) (v' := v1) ?_ this
      simp only [content, hh]
  | elem n a ns p ch ep rest ihc ihr =>
    unfold content at h
    simp only at h
    have hlen : (path ++ [(⟨n, p⟩ : StackElem)]).length = path.length + 1 := by simp
    rw [hlen] at h
    have hP := P.elem v { name := n, ns := ns, depth := path.length + 1 }
    have later : ∀ v1, content V path (.elem n a ns p ch ep .nil) v = .ok (v1, .ok ()) →
        content V path rest v1 = .ok (v', .error (E, stop)) → RaisedIn V path (.elem n a ns p ch ep rest) v E := by
      intro v1 h1 h2
      exact .later (pre := .elem n a ns p ch ep .nil) h1 (ihr path v1 v' E stop h2)
    cases hact : V.onElem v { name := n, ns := ns, depth := path.length + 1 } with
    | done r =>
      rw [hact] at h hP
      simp only at h
      cases r with
      | error f => cases h
      | ok r =>
        obtain ⟨v1, r⟩ := r
        cases r with
        | error e =>
          cases e with
          | propagate e => exact absurd ⟨v1, rfl⟩ (hP e)
          | wrap e => cases h; exact .rejected hact
        | ok u =>
          refine later v1 ?_ h
          simp [content, hact]
    | readString k =>
      rw [hact] at h hP
      simp only at h
      cases hfe : ch.firstElem with
      | none =>
        rw [show asText (path ++ [⟨n, p⟩]) ch ep = (.ok ch.text, ⟨path ++ [⟨n, p⟩], ep⟩) by simp [asText, hfe]] at h
        cases hk : k (.ok ch.text) with
        | error f => rw [hk] at h; cases h
        | ok r =>
          rw [hk] at h
          obtain ⟨v1, r⟩ := r
          cases r with
          | error e =>
            cases e with
            | propagate e => exact absurd ⟨v1, hk⟩ (hP.2 _ e)
            | wrap e => cases h; exact .badText hact hfe hk
          | ok u =>
            refine later v1 ?_ h
            simp [content, hact, asText, hfe, hk]
      | some c =>
        rw [show asText (path ++ [⟨n, p⟩]) ch ep = (.error (.propagate { kind := .msg (.elementInString c.name), stack := path ++ [⟨n, p⟩] ++ [c], pos := c.pos }), ⟨path ++ [⟨n, p⟩] ++ [c], c.pos⟩) by simp [asText, hfe]] at h
        obtain ⟨v1, hk⟩ := hP.1 (.propagate { kind := .msg (.elementInString c.name), stack := path ++ [⟨n, p⟩] ++ [c], pos := c.pos })
        rw [hk] at h
        cases h
        exact .elemInText hact hfe
    | readTo sub k =>
      rw [hact] at h hP
      simp only at h
      cases ha : attributes V (path ++ [⟨n, p⟩]) p a sub with
      | error f => rw [ha] at h; cases h
      | ok r =>
        rw [ha] at h
        obtain ⟨sub', r⟩ := r
        cases r with
        | error e =>
          obtain ⟨e', h1, h2⟩ := attributes_err P a sub sub' e ha
          obtain ⟨v1, hk⟩ := hP.1 sub' (.propagate e)
          simp only [hk] at h
          cases h
          rw [h2]
          exact .attr hact h1
        | ok u =>
          simp only at h
          have hto := attributes_ok a sub sub' ha
          cases hc : content V (path ++ [⟨n, p⟩]) ch sub' with
          | error f => rw [hc] at h; cases h
          | ok r =>
            rw [hc] at h
            obtain ⟨sub'', r⟩ := r
            cases r with
            | error e =>
              obtain ⟨e, stop'⟩ := e
              obtain ⟨v1, hk⟩ := hP.1 sub'' (.propagate e)
              simp only [hk] at h
              cases h
              exact .inside hact hto (ihc _ _ _ _ _ hc)
            | ok u =>
              simp only at h
              cases hk : k sub'' (.ok (n, ns, ep)) with
              | error f => rw [hk] at h; cases h
              | ok r =>
                rw [hk] at h
                obtain ⟨v1, r⟩ := r
                cases r with
                | error e =>
                  cases e with
                  | propagate e => exact absurd ⟨v1, hk⟩ (hP.2 _ _ e)
                  | wrap e => cases h; exact .finish hact hto hc hk
                | ok u =>
                  refine later v1 ?_ h
                  simp [content, hact, ha, hc, hk]

theorem readDoc_raised {σ α : Type} (V : Visitor σ) (P : Propagating V) (D : Deser σ α) (PD : DeserPropagating D) (d : Doc)
    (E : Error) (h : readDoc V D d = .ok (.error E)) : RaisedAtRoot V D d.root E := by
  unfold readDoc deser at h
  simp only [List.nil_append, List.length_cons, List.length_nil, Nat.zero_add] at h
  have hP := PD { name := d.root.name, ns := d.root.ns, depth := 1 }
  cases hact : D { name := d.root.name, ns := d.root.ns, depth := 1 } with
  | done r =>
    rw [hact] at h hP
    simp only at h
    cases r with
    | error f => cases h
    | ok r =>
      cases r with
      | error e =>
        cases e with
        | propagate e => exact absurd rfl (hP e)
        | wrap e => cases h; exact .rejected hact
      | ok u => cases h
  | readString k =>
    rw [hact] at h hP
    simp only at h
    cases hfe : d.root.children.firstElem with
    | none =>
      rw [show asText [⟨d.root.name, d.root.pos⟩] d.root.children d.root.endPos = (.ok d.root.children.text, ⟨[⟨d.root.name, d.root.pos⟩], d.root.endPos⟩) by simp [asText, hfe]] at h
      cases hk : k (.ok d.root.children.text) with
      | error f => rw [hk] at h; cases h
      | ok r =>
        rw [hk] at h
        cases r with
        | error e =>
          cases e with
          | propagate e => exact absurd hk (hP.2 _ e)
          | wrap e => cases h; exact .badText hact hfe hk
        | ok u => cases h
    | some c =>
      rw [show asText [⟨d.root.name, d.root.pos⟩] d.root.children d.root.endPos = (.error (.propagate { kind := .msg (.elementInString c.name), stack := [⟨d.root.name, d.root.pos⟩] ++ [c], pos := c.pos }), ⟨[⟨d.root.name, d.root.pos⟩] ++ [c], c.pos⟩) by simp [asText, hfe]] at h
      have hk := hP.1 (.propagate { kind := .msg (.elementInString c.name), stack := [⟨d.root.name, d.root.pos⟩] ++ [c], pos := c.pos })
      simp only [hk] at h
      cases h
      exact .elemInText hact hfe
  | readTo sub k =>
    rw [hact] at h hP
    simp only at h
    cases ha : attributes V [⟨d.root.name, d.root.pos⟩] d.root.pos d.root.attrs sub with
    | error f => rw [ha] at h; cases h
    | ok r =>
      rw [ha] at h
      obtain ⟨sub', r⟩ := r
      cases r with
      | error e =>
        obtain ⟨e', h1, h2⟩ := attributes_err P _ sub sub' e ha
        have hk := hP.1 sub' (.propagate e)
        simp only [hk] at h
        cases h
        rw [h2]
        exact .attr hact h1
      | ok u =>
        simp only at h
        have hto := attributes_ok _ sub sub' ha
        cases hc : content V [⟨d.root.name, d.root.pos⟩] d.root.children sub' with
        | error f => rw [hc] at h; cases h
        | ok r =>
          rw [hc] at h
          obtain ⟨sub'', r⟩ := r
          cases r with
          | error e =>
            obtain ⟨e, stop'⟩ := e
            have hk := hP.1 sub'' (.propagate e)
            simp only [hk] at h
            cases h
            exact .inside hact hto (content_raised V P _ _ _ _ _ _ hc)
          | ok u =>
            simp only at h
            cases hk : k sub'' (.ok (d.root.name, d.root.ns, d.root.endPos)) with
            | error f => rw [hk] at h; cases h
            | ok r =>
              rw [hk] at h
              cases r with
              | error e =>
                cases e with
                | propagate e => exact absurd hk (hP.2 _ _ e)
                | wrap e => cases h; exact .finish hact hto hc hk
              | ok u => cases h

theorem content_append {σ : Type} (V : Visitor σ) (path : List StackElem) (pre rest : Forest) (v v' : σ)
    (h : content V path pre v = .ok (v', .ok ())) : content V path (pre.append rest) v = content V path rest v' := by
  induction pre generalizing v with
  | nil => unfold content at h; cases h; rfl
  | misc m p r ih => exact ih v h
  | chars s cd p r ih =>
    simp only [Forest.append, content] at h ⊢
    split at h
    · cases h
    · cases h
    · exact ih _ h
  | elem n a ns p ch ep r _ ih =>
    unfold content at h
    unfold Forest.append
    conv => lhs; unfold content
    simp only at h ⊢
    revert h
    split
    · intro h; cases h
    · intro h; cases h
    · intro h; cases h
    · intro h; cases h
    · exact fun h => ih _ h

theorem attributes_to {σ : Type} {V : Visitor σ} {l : List XAttr} {v v' : σ} (here : List StackElem) (pos : Pos)
    (h : AttrsTo V l v v') : attributes V here pos l v = .ok (v', .ok ()) := by
  induction h with
  | nil => rfl
  | cons h _ ih => unfold attributes; rw [h]; exact ih

theorem attributes_fails {σ : Type} {V : Visitor σ} {l : List XAttr} {v : σ} {e : DErr} (here : List StackElem) (pos : Pos)
    (h : AttrFails V l v e) :
    ∃ v', attributes V here pos l v = .ok (v', .error { kind := .deserializer e, stack := here, pos }) := by
  induction h with
  | here h => unfold attributes; rw [h]; exact ⟨_, rfl⟩
  | later h _ ih => unfold attributes; rw [h]; exact ih

theorem raised_content {σ : Type} (V : Visitor σ) (P : Propagating V) {f : Forest} {path : List StackElem} {v : σ}
    {E : Error} (h : RaisedIn V path f v E) : ∃ v' stop, content V path f v = .ok (v', .error (E, stop)) := by
  induction h with
  | text h => simp only [content, h]; exact ⟨_, _, rfl⟩
  | rejected h => simp [content, h]
  | badText h h1 h2 => simp [content, h, asText, h1, h2]
  | @elemInText path n a ns pos ch ep rest v k c h h1 =>
    have hP := P.elem v { name := n, ns := ns, depth := path.length + 1 }
    rw [h] at hP
    obtain ⟨v1, hk⟩ := hP.1 (.propagate { kind := .msg (.elementInString c.name), stack := path ++ [⟨n, pos⟩, c], pos := c.pos })
    simp [content, h, asText, h1, hk]
  | @attr path n a ns pos ch ep rest v sub k e h h1 =>
    have hP := P.elem v { name := n, ns := ns, depth := path.length + 1 }
    rw [h] at hP
    obtain ⟨v', ha⟩ := attributes_fails (path ++ [⟨n, pos⟩]) pos h1
    obtain ⟨v1, hk⟩ := hP.1 v' (.propagate { kind := .deserializer e, stack := path ++ [⟨n, pos⟩], pos })
    simp [content, h, ha, hk]
  | finish h h1 h2 h3 =>
    simp [content, h, attributes_to _ _ h1, h2, h3]
  | @inside path n a ns pos ch ep rest v sub k sub' E h h1 h2 ih =>
    have hP := P.elem v { name := n, ns := ns, depth := path.length + 1 }
    rw [h] at hP
    obtain ⟨v', stop, hc⟩ := ih
    obtain ⟨v1, hk⟩ := hP.1 v' (.propagate E)
    simp [content, h, attributes_to _ _ h1, hc, hk]
  | later h1 _ ih =>
    rw [content_append V _ _ _ _ _ h1]
    exact ih

theorem raised_readDoc {σ α : Type} (V : Visitor σ) (P : Propagating V) (D : Deser σ α) (PD : DeserPropagating D) (d : Doc)
    (E : Error) (h : RaisedAtRoot V D d.root E) : readDoc V D d = .ok (.error E) := by
  have hP := PD { name := d.root.name, ns := d.root.ns, depth := 1 }
  cases h with
  | rejected h => simp [readDoc, deser, h]
  | badText h h1 h2 => simp [readDoc, deser, h, asText, h1, h2]
  | elemInText h h1 =>
    rw [h] at hP
    simp [readDoc, deser, h, asText, h1, hP.1]
  | attr h h1 =>
    rw [h] at hP
    obtain ⟨v', ha⟩ := attributes_fails [⟨d.root.name, d.root.pos⟩] d.root.pos h1
    simp [readDoc, deser, h, ha, hP.1]
  | finish h h1 h2 h3 =>
    simp [readDoc, deser, h, attributes_to _ _ h1, h2, h3]
  | inside h h1 h2 =>
    rw [h] at hP
    obtain ⟨v', stop, hc⟩ := raised_content V P h2
    simp [readDoc, deser, h, attributes_to _ _ h1, hc, hP.1]

theorem PathIn_append (pre rest : Forest) (p : List StackElem) (h : PathIn rest p) : PathIn (pre.append rest) p := by
  cases p with
  | nil => cases pre.append rest <;> exact trivial
  | cons x p =>
    induction pre with
    | nil => exact h
    | elem n a ns pos ch ep rest' _ ih => exact .inr ih
    | chars s cd pos rest' ih => exact ih
    | misc m pos rest' ih => exact ih

theorem PathIn_nil (f : Forest) : PathIn f [] := by cases f <;> exact trivial

theorem firstElem_path (f : Forest) (c : StackElem) (h : f.firstElem = some c) : PathIn f [c] := by
  induction f with
  | nil => cases h
  | elem n a ns pos ch ep rest _ _ =>
    simp only [Forest.firstElem, Option.some.injEq] at h
    exact .inl ⟨h.symm, PathIn_nil _⟩
  | chars s cd pos rest ih => exact ih h
  | misc m pos rest ih => exact ih h

theorem Spec.RaisedIn.path {σ : Type} {V : Visitor σ} {path : List StackElem} {f : Forest} {v : σ} {E : Error}
    (h : RaisedIn V path f v E) : ∃ p, E.stack = path ++ p ∧ PathIn f p := by
  induction h with
  | text => exact ⟨[], by simp, trivial⟩
  | rejected => exact ⟨_, rfl, .inl ⟨rfl, PathIn_nil _⟩⟩
  | badText => exact ⟨_, rfl, .inl ⟨rfl, PathIn_nil _⟩⟩
  | elemInText _ h => exact ⟨[_, _], by simp, .inl ⟨rfl, firstElem_path _ _ h⟩⟩
  | attr => exact ⟨_, rfl, .inl ⟨rfl, PathIn_nil _⟩⟩
  | finish => exact ⟨_, rfl, .inl ⟨rfl, PathIn_nil _⟩⟩
  | inside _ _ _ ih =>
    obtain ⟨p, h1, h2⟩ := ih
    exact ⟨_ :: p, by rw [h1, List.append_assoc]; rfl, .inl ⟨rfl, h2⟩⟩
  | later _ _ ih =>
    obtain ⟨p, h1, h2⟩ := ih
    exact ⟨p, h1, PathIn_append _ _ _ h2⟩

theorem Spec.RaisedAtRoot.path {σ α : Type} {V : Visitor σ} {D : Deser σ α} {x : Elem} {E : Error}
    (h : RaisedAtRoot V D x E) : IsPath x E.stack := by
  cases h with
  | rejected => exact ⟨[], rfl, PathIn_nil _⟩
  | badText => exact ⟨[], rfl, PathIn_nil _⟩
  | elemInText _ h => exact ⟨[_], rfl, firstElem_path _ _ h⟩
  | attr => exact ⟨[], rfl, PathIn_nil _⟩
  | finish => exact ⟨[], rfl, PathIn_nil _⟩
  | inside _ _ h =>
    obtain ⟨p, h1, h2⟩ := h.path
    exact ⟨p, h1, h2⟩

theorem firstElem_strip (f : Forest) : f.strip.firstElem = f.firstElem := by
  induction f with
  | nil => rfl
  | elem => rfl
  | chars s cd pos rest ih => exact ih
  | misc m pos rest ih => exact ih

theorem text_strip (f : Forest) : f.strip.text = f.text := by
  induction f with
  | nil => rfl
  | elem n a ns pos ch ep rest _ ih => exact ih
  | chars s cd pos rest ih => simp only [Forest.strip, Forest.text, ih]
  | misc m pos rest ih => exact ih

theorem asText_strip (here : List StackElem) (f : Forest) (ep : Pos) : asText here f.strip ep = asText here f ep := by
  unfold asText
  rw [firstElem_strip, text_strip]

theorem content_strip {σ : Type} (V : Visitor σ) (f : Forest) (path : List StackElem) (v : σ) :
    content V path f.strip v = content V path f v := by
  induction f generalizing path v with
  | nil => rfl
  | misc m pos rest ih => simp only [Forest.strip, content]; exact ih path v
  | chars s cd pos rest ih => simp only [Forest.strip, content, ih]
  | elem n a ns pos ch ep rest ihc ihr => simp only [Forest.strip, content, ihc, ihr, asText_strip]

theorem readDoc_strip {σ α : Type} (V : Visitor σ) (D : Deser σ α) (d d' : Doc) (h : d.root.strip = d'.root.strip) :
    readDoc V D d = readDoc V D d' := by
  have key : ∀ x : Elem, deser V D [] x = deser V D [] x.strip := by
    intro x
    unfold deser Elem.strip
    simp only [content_strip, asText_strip]
  unfold readDoc
  rw [key d.root, key d'.root, h]

/-! ### positions -/

def eraseStop (s : Stop) : Stop := { path := s.path.map StackElem.erase, pos := { row := 0, col := 0 } }

def eraseC {σ : Type} : Except Fault (σ × Except (Error × Stop) Unit) → Except Fault (σ × Except (Error × Stop) Unit)
  | .ok (v, .error (e, s)) => .ok (v, .error (Error.erase e, eraseStop s))
  | r => r

def eraseA {σ : Type} : Except Fault (σ × Except Error Unit) → Except Fault (σ × Except Error Unit)
  | .ok (v, .error e) => .ok (v, .error (Error.erase e))
  | r => r

theorem StackElem_erase_erase (x : StackElem) : StackElem.erase (StackElem.erase x) = StackElem.erase x := rfl

theorem map_erase_erase (l : List StackElem) : (l.map StackElem.erase).map StackElem.erase = l.map StackElem.erase := by
  rw [List.map_map]; rfl

theorem Error_erase_erase (e : Error) : Error.erase (Error.erase e) = Error.erase e := by
  simp [Error.erase, StackElem_erase_erase]

theorem VErr_erase_erase (e : VErr) : VErr.erase (VErr.erase e) = VErr.erase e := by
  cases e <;> simp [VErr.erase, Error_erase_erase]

theorem firstElem_norm (f : Forest) : f.norm.firstElem = f.firstElem.map StackElem.erase := by
  induction f with
  | nil => rfl
  | elem => rfl
  | chars s cd pos rest ih => exact ih
  | misc m pos rest ih => exact ih

theorem text_norm (f : Forest) : f.norm.text = f.text := by
  induction f with
  | nil => rfl
  | elem n a ns pos ch ep rest _ ih => exact ih
  | chars s cd pos rest ih => simp only [Forest.norm, Forest.text, ih]
  | misc m pos rest ih => exact ih

theorem attributes_norm {σ : Type} (V : Visitor σ) (here here' : List StackElem) (pos pos' : Pos)
    (hh : here.map StackElem.erase = here'.map StackElem.erase) (l : List XAttr) (v : σ) :
    eraseA (attributes V here pos l v) = eraseA (attributes V here' pos' l v) := by
  induction l generalizing v with
  | nil => rfl
  | cons a l ih =>
    unfold attributes
    cases V.onAttr v a.name.expanded a.value with
    | error f => rfl
    | ok r =>
      obtain ⟨v1, r⟩ := r
      cases r with
      | ok u => exact ih v1
      | error e =>
        cases e with
        | propagate e => rfl
        | wrap e => simp [eraseA, Error.erase, hh]

theorem eraseA_cases {σ : Type} {a b : Except Fault (σ × Except Error Unit)} (h : eraseA a = eraseA b) :
    (∃ f, a = .error f ∧ b = .error f) ∨ (∃ v, a = .ok (v, .ok ()) ∧ b = .ok (v, .ok ())) ∨
    ∃ v e e', a = .ok (v, .error e) ∧ b = .ok (v, .error e') ∧ Error.erase e = Error.erase e' := by
  rcases a with f | ⟨v, e | u⟩ <;> rcases b with f' | ⟨v', e' | u'⟩ <;> simp_all [eraseA]
  exact ⟨_, _, ⟨rfl, rfl⟩, _, ⟨rfl, rfl⟩, h.2⟩

theorem eraseC_cases {σ : Type} {a b : Except Fault (σ × Except (Error × Stop) Unit)} (h : eraseC a = eraseC b) :
    (∃ f, a = .error f ∧ b = .error f) ∨ (∃ v, a = .ok (v, .ok ()) ∧ b = .ok (v, .ok ())) ∨
    ∃ v e s e' s', a = .ok (v, .error (e, s)) ∧ b = .ok (v, .error (e', s')) ∧ Error.erase e = Error.erase e' ∧
      eraseStop s = eraseStop s' := by
  rcases a with f | ⟨v, ⟨e, s⟩ | u⟩ <;> rcases b with f' | ⟨v', ⟨e', s'⟩ | u'⟩ <;> simp_all [eraseC]
  exact ⟨_, _, _, ⟨rfl, rfl, rfl⟩, _, _, ⟨rfl, rfl, rfl⟩, h.2⟩

theorem eraseV_cases {σ : Type} {a b : Except Fault (σ × Except VErr Unit)} (h : eraseV a = eraseV b) :
    (∃ f, a = .error f ∧ b = .error f) ∨ (∃ v, a = .ok (v, .ok ()) ∧ b = .ok (v, .ok ())) ∨
    (∃ v e e', a = .ok (v, .error (.propagate e)) ∧ b = .ok (v, .error (.propagate e')) ∧ Error.erase e = Error.erase e') ∨
    ∃ v e, a = .ok (v, .error (.wrap e)) ∧ b = .ok (v, .error (.wrap e)) := by
  rcases a with f | ⟨v, (e | e) | u⟩ <;> rcases b with f' | ⟨v', (e' | e') | u'⟩ <;> simp_all [eraseV, VErr.erase]
  exact ⟨_, _, ⟨rfl, rfl⟩, _, ⟨rfl, rfl⟩, h.2⟩

theorem asText_norm (here here' : List StackElem) (ep ep' : Pos) (hh : here.map StackElem.erase = here'.map StackElem.erase)
    (f : Forest) :
    (asText here f ep = (.ok f.text, ⟨here, ep⟩) ∧ asText here' f.norm ep' = (.ok f.text, ⟨here', ep'⟩)) ∨
    ∃ e s e' s', asText here f ep = (.error e, s) ∧ asText here' f.norm ep' = (.error e', s') ∧ VErr.erase e = VErr.erase e' ∧
      eraseStop s = eraseStop s' := by
  unfold asText
  rw [firstElem_norm, text_norm]
  cases f.firstElem with
  | none => exact .inl ⟨rfl, rfl⟩
  | some c =>
    right
    exact ⟨_, _, _, _, rfl, rfl, by simp [VErr.erase, Error.erase, StackElem.erase, hh], by simp [eraseStop, hh, StackElem.erase]⟩

theorem obl_err {ρ : Type} {er : ρ → ρ} {k : Except VErr String → ρ} (h : ∀ e, er (k (.error e)) = er (k (.error (VErr.erase e))))
    {e e' : VErr} (he : VErr.erase e = VErr.erase e') : er (k (.error e)) = er (k (.error e')) := by
  rw [h e, h e', he]

/-- what happens after the visitor's decision about a child -/
theorem content_cont {σ : Type} (cont cont' : σ → Except Fault (σ × Except (Error × Stop) Unit))
    (hc : ∀ v, eraseC (cont v) = eraseC (cont' v)) (pos pos' : Pos)
    (a b : Except Fault (σ × Except VErr Unit)) (s s' : Stop) (hs : eraseStop s = eraseStop s') (h : eraseV a = eraseV b) :
    eraseC (match (.ok (a, s) : Except Fault (Except Fault (σ × Except VErr Unit) × Stop)) with
      | .error f => .error f
      | .ok (.error f, _) => .error f
      | .ok (.ok (v, .error (.propagate e)), stop) => .ok (v, .error (e, stop))
      | .ok (.ok (v, .error (.wrap e)), stop) => .ok (v, .error ({ kind := .deserializer e, stack := stop.path, pos }, stop))
      | .ok (.ok (v, .ok ()), _) => cont v) =
    eraseC (match (.ok (b, s') : Except Fault (Except Fault (σ × Except VErr Unit) × Stop)) with
      | .error f => .error f
      | .ok (.error f, _) => .error f
      | .ok (.ok (v, .error (.propagate e)), stop) => .ok (v, .error (e, stop))
      | .ok (.ok (v, .error (.wrap e)), stop) => .ok (v, .error ({ kind := .deserializer e, stack := stop.path, pos := pos' }, stop))
      | .ok (.ok (v, .ok ()), _) => cont' v) := by
  rcases eraseV_cases h with ⟨f, rfl, rfl⟩ | ⟨v, rfl, rfl⟩ | ⟨v, e, e', rfl, rfl, he⟩ | ⟨v, e, rfl, rfl⟩
  · rfl
  · exact hc v
  · simp [eraseC, he, hs]
  · have : s.path.map StackElem.erase = s'.path.map StackElem.erase := by
      simpa [eraseStop] using hs
    simp [eraseC, Error.erase, hs, this]

theorem content_norm {σ : Type} (V : Visitor σ) (O : Oblivious V) (f : Forest) (path path' : List StackElem)
    (hp : path.map StackElem.erase = path'.map StackElem.erase) (v : σ) :
    eraseC (content V path f v) = eraseC (content V path' f.norm v) := by
  induction f generalizing path path' v with
  | nil => rfl
  | misc m p rest ih => exact ih path path' hp v
  | chars s cd p rest ih =>
    simp only [Forest.norm, content]
    rw [O.chars v s p { row := 0, col := 0 }]
    cases V.onChars v s { row := 0, col := 0 } with
    | error f => rfl
    | ok r =>
      obtain ⟨v1, r⟩ := r
      cases r with
      | ok u => exact ih path path' hp v1
      | error e => simp [eraseC, Error.erase, eraseStop, hp]
  | elem n a ns p ch ep rest ihc ihr =>
    unfold Forest.norm content
    have hlen : path.length = path'.length := by simpa using congrArg List.length hp
    have hh : (path ++ [(⟨n, p⟩ : StackElem)]).map StackElem.erase =
        (path' ++ [(⟨n, ⟨0, 0⟩⟩ : StackElem)]).map StackElem.erase := by
      simp [hp, StackElem.erase]
    have hl : (path ++ [(⟨n, p⟩ : StackElem)]).length = (path' ++ [(⟨n, ⟨0, 0⟩⟩ : StackElem)]).length := by simp [hlen]
    simp only
    rw [hl]
    have hO := O.elem v { name := n, ns := ns, depth := (path' ++ [(⟨n, ⟨0, 0⟩⟩ : StackElem)]).length }
    have hcont := fun v => ihr path path' hp v
    cases hact : V.onElem v { name := n, ns := ns, depth := (path' ++ [(⟨n, ⟨0, 0⟩⟩ : StackElem)]).length } with
    | done r =>
      rw [hact] at hO
      simp only
      exact content_cont _ _ hcont p _ r r _ _ (by simp [eraseStop, hp, StackElem.erase]) rfl
    | readString k =>
      rw [hact] at hO
      simp only
      rcases asText_norm _ _ ep ⟨0, 0⟩ hh ch with ⟨h1, h2⟩ | ⟨e, s, e', s', h1, h2, h3, h4⟩
      · rw [h1, h2]
        exact content_cont _ _ hcont p _ _ _ _ _ (by simp [eraseStop, hp, StackElem.erase]) rfl
      · rw [h1, h2]
        exact content_cont _ _ hcont p _ _ _ _ _ h4 (obl_err hO h3)
    | readTo sub k =>
      rw [hact] at hO
      simp only
      rcases eraseA_cases (attributes_norm V _ _ p ⟨0, 0⟩ hh a sub) with ⟨f, h1, h2⟩ | ⟨v1, h1, h2⟩ | ⟨v1, e, e', h1, h2, h3⟩
      · rw [h1, h2]
      · rw [h1, h2]
        simp only
        rcases eraseC_cases (ihc _ _ hh v1) with ⟨f, h1, h2⟩ | ⟨v2, h1, h2⟩ | ⟨v2, e, s, e', s', h1, h2, h3, h4⟩
        · rw [h1, h2]
        · rw [h1, h2]
          exact content_cont _ _ hcont p _ _ _ _ _ (by simp [eraseStop, hp, StackElem.erase]) (hO.2 _ _ _ _ _)
        · rw [h1, h2]
          refine content_cont _ _ hcont p _ _ _ _ _ h4 ?_
          rw [hO.1, hO.1 v2 (.propagate e')]
          simp [VErr.erase, h3]
      · rw [h1, h2]
        refine content_cont _ _ hcont p _ _ _ _ _ (by simp [eraseStop, hp, StackElem.erase]) ?_
        rw [hO.1, hO.1 v1 (.propagate e')]
        simp [VErr.erase, h3]

theorem eraseD_cases {α : Type} {a b : Except Fault (Except VErr α)} (h : eraseD a = eraseD b) :
    (∃ f, a = .error f ∧ b = .error f) ∨ (∃ v, a = .ok (.ok v) ∧ b = .ok (.ok v)) ∨
    (∃ e e', a = .ok (.error (.propagate e)) ∧ b = .ok (.error (.propagate e')) ∧ Error.erase e = Error.erase e') ∨
    ∃ e, a = .ok (.error (.wrap e)) ∧ b = .ok (.error (.wrap e)) := by
  rcases a with f | ((e | e) | u) <;> rcases b with f' | ((e' | e') | u') <;> simp_all [eraseD, VErr.erase]

theorem readDoc_norm {σ α : Type} (V : Visitor σ) (O : Oblivious V) (D : Deser σ α) (OD : DeserOblivious D) (d : Doc) (r : Elem)
    (hr : d.root.norm = r) (d' : Doc) (hd' : d'.root = r) :
    eraseRead (readDoc V D d) = eraseRead (readDoc V D d') := by
  unfold readDoc deser
  rw [hd', ← hr]
  unfold Elem.norm
  simp only [List.nil_append, List.length_cons, List.length_nil, Nat.zero_add]
  generalize hx : d.root = x
  have hh : [(⟨x.name, x.pos⟩ : StackElem)].map StackElem.erase =
        [(⟨x.name, ⟨0, 0⟩⟩ : StackElem)].map StackElem.erase := rfl
  have hO := OD { name := x.name, ns := x.ns, depth := 1 }
  have fin : ∀ (a b : Except Fault (Except VErr α)) (s s' : Stop), eraseStop s = eraseStop s' → eraseD a = eraseD b →
    eraseRead (match (match (.ok (a, s) : Except Fault (Except Fault (Except VErr α) × Stop)) with
      | .error f => .error f
      | .ok (.error f, _) => .error f
      | .ok (.ok r, stop) => .ok (r, stop) : Except Fault (Except VErr α × Stop)) with
      | .error f => .error f
      | .ok (.ok a, _) => .ok (.ok a)
      | .ok (.error (.propagate e), _) => .ok (.error e)
      | .ok (.error (.wrap e), stop) => .ok (.error { kind := .deserializer e, stack := stop.path, pos := stop.pos })) =
    eraseRead (match (match (.ok (b, s') : Except Fault (Except Fault (Except VErr α) × Stop)) with
      | .error f => .error f
      | .ok (.error f, _) => .error f
      | .ok (.ok r, stop) => .ok (r, stop) : Except Fault (Except VErr α × Stop)) with
      | .error f => .error f
      | .ok (.ok a, _) => .ok (.ok a)
      | .ok (.error (.propagate e), _) => .ok (.error e)
      | .ok (.error (.wrap e), stop) => .ok (.error { kind := .deserializer e, stack := stop.path, pos := stop.pos })) := by
    intro a b s s' hs h
    rcases eraseD_cases h with ⟨f, rfl, rfl⟩ | ⟨v, rfl, rfl⟩ | ⟨e, e', rfl, rfl, he⟩ | ⟨e, rfl, rfl⟩
    · rfl
    · rfl
    · simp [eraseRead, he]
    · have : s.path.map StackElem.erase = s'.path.map StackElem.erase := by
        simpa [eraseStop] using hs
      simp [eraseRead, Error.erase, this]
  cases hact : D { name := x.name, ns := x.ns, depth := 1 } with
  | done r =>
    rw [hact] at hO
    exact fin r r _ _ (by simp [eraseStop, StackElem.erase]) rfl
  | readString k =>
    rw [hact] at hO
    simp only
    rcases asText_norm _ _ x.endPos ⟨0, 0⟩ hh x.children with ⟨h1, h2⟩ | ⟨e, s, e', s', h1, h2, h3, h4⟩
    · rw [h1, h2]
      exact fin _ _ _ _ (by simp [eraseStop, StackElem.erase]) rfl
    · rw [h1, h2]
      exact fin _ _ _ _ h4 (obl_err hO h3)
  | readTo sub k =>
    rw [hact] at hO
    simp only
    rcases eraseA_cases (attributes_norm V _ _ x.pos ⟨0, 0⟩ hh x.attrs sub) with ⟨f, h1, h2⟩ | ⟨v1, h1, h2⟩ | ⟨v1, e, e', h1, h2, h3⟩
    · rw [h1, h2]
    · rw [h1, h2]
      simp only
      rcases eraseC_cases (content_norm V O x.children _ _ hh v1) with ⟨f, h1, h2⟩ | ⟨v2, h1, h2⟩ | ⟨v2, e, s, e', s', h1, h2, h3, h4⟩
      · rw [h1, h2]
      · rw [h1, h2]
        exact fin _ _ _ _ (by simp [eraseStop, StackElem.erase]) (hO.2 _ _ _ _ _)
      · rw [h1, h2]
        refine fin _ _ _ _ h4 ?_
        rw [hO.1, hO.1 v2 (.propagate e')]
        simp [VErr.erase, h3]
    · rw [h1, h2]
      refine fin _ _ _ _ (by simp [eraseStop, StackElem.erase]) ?_
      rw [hO.1, hO.1 v1 (.propagate e')]
      simp [VErr.erase, h3]

/-! ### the final result is never lost -/

theorem nextLoop_final (dbg : Bool) (final : Final) (finalPos : Pos) (items : List (XEvent × Pos)) (depth : Nat)
    (stack : List StackElem) (r : Except Error (Event × Pos)) (s' : RState)
    (h : nextLoop dbg final finalPos depth stack items = .ok (r, s')) : s'.inner.final = final := by
  induction items with
  | nil =>
    unfold nextLoop at h
    cases final with
    | eof => cases h
    | err m p => cases h; rfl
  | cons e l ih =>
    obtain ⟨e, p⟩ := e
    cases e with
    | startDocument => exact ih h
    | misc _ => exact ih h
    | startElement _ _ _ => cases h; rfl
    | characters _ => cases h; rfl
    | cdata _ => cases h; rfl
    | endElement n =>
      unfold nextLoop at h
      cases depth with
      | zero => cases h
      | succ d =>
        simp only at h
        split at h
        · cases h
        · cases h; rfl

theorem next_final {dbg : Bool} {s s' : RState} {r : Except Error (Event × Pos)} (h : next dbg s = .ok (r, s')) :
    s'.inner.final = s.inner.final := by
  unfold next at h
  split at h
  · cases h
  · exact nextLoop_final _ _ _ _ _ _ _ _ h

theorem skipLoop_final {dbg : Bool} {target fuel : Nat} {s s' : RState} {r : Except Error Unit}
    (h : skipLoop dbg target fuel s = .ok (r, s')) : s'.inner.final = s.inner.final := by
  induction fuel generalizing s with
  | zero => cases h
  | succ fuel ih =>
    unfold skipLoop at h
    split at h
    · split at h
      · cases h
      · rename_i hn; cases h; exact next_final hn
      · rename_i hn; have := ih h; exact this.trans (next_final hn :)
    · cases h; rfl

theorem returnToDepth_final {dbg : Bool} {target : Nat} {s s' : RState} {r : Except Error Unit}
    (h : returnToDepth dbg target s = .ok (r, s')) : s'.inner.final = s.inner.final := by
  unfold returnToDepth at h
  split at h
  · cases h
  · exact skipLoop_final h

theorem readString_final {dbg : Bool} {er : ElemReader} {fuel : Nat} {out : String} {s s' : RState} {r : Except VErr String}
    (h : readString dbg er fuel out s = .ok (r, s')) : s'.inner.final = s.inner.final := by
  induction fuel generalizing s out with
  | zero => cases h
  | succ fuel ih =>
    unfold readString at h
    split at h
    · cases h
    · split at h
      · cases h
      · rename_i hn; cases h; exact next_final hn
      · rename_i hn
        split at h
        · cases h
        · cases h; exact next_final hn
      · rename_i hn; cases h; exact next_final hn
      · rename_i hn; exact (ih h).trans (next_final hn)

theorem readLoop_final {σ : Type} {dbg : Bool} {V : Visitor σ} {fuel : Nat} {er : ElemReader} {v v' : σ} {s s' : RState}
    {r : Except VErr ReadToOk} (h : readLoop dbg V fuel er v s = .ok (v', r, s')) : s'.inner.final = s.inner.final := by
  induction fuel generalizing er v s v' r s' with
  | zero => cases h
  | succ fuel ih =>
    unfold readLoop at h
    split at h
    · cases h
    · split at h
      · cases h
      · rename_i hn; cases h; exact next_final hn
      · rename_i hn; cases h; exact next_final hn
      · rename_i s1 hn
        split at h
        · cases h
        · cases h; exact next_final hn
        · exact (ih h).trans (next_final hn)
      · rename_i a ns pos s1 hn
        have h1 := next_final hn
        simp only at h
        split at h
        · cases h
        · rename_i elem he
          split at h
          · cases h
          · cases h
          · rename_i v2 e s2 hr
            cases h
            refine Eq.trans ?_ h1
            revert hr
            cases V.onElem v { name := elem.name, ns := ns, depth := er.stackPos + 1 + 1 } with
            | done r => intro hr; cases hr; rfl
            | readString k =>
              intro hr
              simp only at hr
              split at hr
              · cases hr
              · rename_i hs; injection hr with hr; injection hr with _ hr; subst hr; exact readString_final hs
            | readTo sub k =>
              intro hr
              simp only at hr
              split at hr
              · cases hr
              · injection hr with hr; injection hr with _ hr; subst hr; rfl
              · split at hr
                · cases hr
                · rename_i hs; injection hr with hr; injection hr with _ hr; subst hr; exact ih hs
          · rename_i v2 s2 hr
            have h2 : s2.inner.final = s1.inner.final := by
              revert hr
              cases V.onElem v { name := elem.name, ns := ns, depth := er.stackPos + 1 + 1 } with
              | done r => intro hr; cases hr; rfl
              | readString k =>
                intro hr
                simp only at hr
                split at hr
                · cases hr
                · rename_i hs; injection hr with hr; injection hr with _ hr; subst hr; exact readString_final hs
              | readTo sub k =>
                intro hr
                simp only at hr
                split at hr
                · cases hr
                · injection hr with hr; injection hr with _ hr; subst hr; rfl
                · split at hr
                  · cases hr
                  · rename_i hs; injection hr with hr; injection hr with _ hr; subst hr; exact ih hs
            split at h
            · cases h
            · rename_i hs; cases h; exact ((returnToDepth_final hs).trans h2).trans h1
            · rename_i hs; exact (((ih h).trans (returnToDepth_final hs)).trans h2).trans h1

theorem runDeser_final {σ α : Type} {dbg : Bool} {V : Visitor σ} {D : Deser σ α} {fuel : Nat} {er : ElemReader} {s s' : RState}
    {r : Except VErr α} (h : runDeser dbg V D fuel er s = .ok (r, s')) : s'.inner.final = s.inner.final := by
  unfold runDeser at h
  split at h
  · cases h
  · rename_i elem he
    simp only at h
    split at h
    · cases h
    · cases h
    · rename_i r2 s2 hr
      cases h
      revert hr
      cases D { name := elem.name, ns := er.ns, depth := er.stackPos + 1 } with
      | done r => intro hr; cases hr; rfl
      | readString k =>
        intro hr
        simp only at hr
        split at hr
        · cases hr
        · rename_i hs; injection hr with hr; injection hr with _ hr; subst hr; exact readString_final hs
      | readTo sub k =>
        intro hr
        simp only at hr
        split at hr
        · cases hr
        · rename_i hs
          injection hr with hr; injection hr with _ hr; subst hr
          unfold readTo at hs
          split at hs
          · cases hs
          · split at hs
            · cases hs
            · cases hs; rfl
            · exact readLoop_final hs

theorem root_final {dbg : Bool} {s s' : RState} {er : ElemReader}
    (h : root dbg s = .ok (.ok er, s')) : s'.inner.final = s.inner.final := by
  unfold root at h
  split at h
  · split at h <;> cases h
  · split at h
    · cases h
    · cases h
    · rename_i hn
      cases h
      exact (next_final hn).trans rfl
    · cases h
  · cases h

theorem endLoop_eof {final : Final} {finalPos : Pos} {items : List (XEvent × Pos)}
    (h : endLoop final finalPos items = .ok ()) : final = .eof := by
  induction items with
  | nil =>
    unfold endLoop at h
    cases final with
    | eof => rfl
    | err m p => cases h
  | cons e l ih =>
    obtain ⟨e, p⟩ := e
    cases e with
    | misc m =>
      cases m with
      | comment _ => exact ih h
      | pi _ _ => exact ih h
      | whitespace _ => cases h
    | startDocument => cases h
    | startElement _ _ _ => cases h
    | characters _ => cases h
    | cdata _ => cases h
    | endElement n => cases h

theorem read_ok_final {σ α : Type} {dbg : Bool} {V : Visitor σ} {D : Deser σ α} {i : Input} {a : α}
    (h : read dbg V D i = .ok (.ok a)) : i.final = .eof := by
  unfold read at h
  split at h
  · cases h
  · cases h
  · rename_i hroot
    split at h
    · cases h
    · cases h
    · rename_i hd
      split at h
      · cases h
      · cases h
      · rename_i he
        unfold endDoc at he
        split at he
        · cases he
        · cases he
        · rename_i hr
          simp only [Except.ok.injEq] at he
          have := endLoop_eof he
          rw [returnToDepth_final hr, runDeser_final hd, root_final hroot] at this
          exact this

end SX
