import Verif.Spec.OpenFails
import Verif.Proof.OpenRead

/-
Which error derived visitors with fields of arbitrary types return.
-/
namespace SX.Open
open SX.Spec SX.Spec.Open

variable {σ τ α : Type}

/-! ### Where a traversal stops -/

theorem attributes_error (V : Visitor σ) (here : List StackElem) (pos : Pos) (as : List XAttr) (v : σ) (E : Error) :
    (∃ v', attributes V here pos as v = .ok (v', .error E)) ↔
      ∃ as1 a bs v1 v' e, as = as1 ++ a :: bs ∧ okContent (attributes V here pos as1 v) = some v1 ∧
        V.onAttr v1 a.name.expanded a.value = .ok (v', .error e) ∧ E = placed here pos e := by
  induction as generalizing v with
  | nil => simp [attributes]
  | cons a as ih =>
    constructor
    · rintro ⟨v', h⟩
      rw [attributes] at h
      rcases hr : V.onAttr v a.name.expanded a.value with f | ⟨w, e | u⟩
      · rw [hr] at h; cases h
      · rw [hr] at h
        refine ⟨[], a, as, v, w, e, rfl, rfl, hr, ?_⟩
        cases e <;> cases h <;> rfl
      · rw [hr] at h
        obtain ⟨as1, b, bs, v1, v', e, rfl, h1, h2, h3⟩ := (ih w).mp ⟨v', h⟩
        refine ⟨a :: as1, b, bs, v1, v', e, rfl, ?_, h2, h3⟩
        rw [attributes_cons, hr]
        exact h1
    · rintro ⟨as1, b, bs, v1, v', e, hx, h1, h2, rfl⟩
      cases as1 with
      | nil =>
        simp only [List.nil_append, List.cons.injEq] at hx
        obtain ⟨rfl, rfl⟩ := hx
        cases h1
        rw [attributes, h2]
        cases e <;> exact ⟨_, rfl⟩
      | cons a' as1 =>
        simp only [List.cons_append, List.cons.injEq] at hx
        obtain ⟨rfl, rfl⟩ := hx
        rw [attributes_cons] at h1
        rcases hr : V.onAttr v a.name.expanded a.value with f | ⟨w, e' | u⟩
        · rw [hr] at h1; cases h1
        · rw [hr] at h1; cases h1
        · rw [hr] at h1
          rw [attributes, hr]
          exact (ih w).mpr ⟨as1, b, bs, v1, v', e, rfl, h1, h2, rfl⟩

/-- What becomes of the traversal when a child has been presented. -/
theorem content_elem_eq (V : Visitor σ) (path : List StackElem) (name : QName) (attrs : List XAttr) (ns : NsMap) (pos : Pos) (ch : Forest) (ep : Pos)
    (rest : Forest) (v : σ) :
    content V path (.elem name attrs ns pos ch ep rest) v =
      (perform V path ⟨name, attrs, ns, pos, ch, ep⟩ (V.onElem v (infoOf path ⟨name, attrs, ns, pos, ch, ep⟩))).bind fun r =>
        match r with
        | (.error f, _) => .error f
        | (.ok (v, .error e), stop) => .ok (v, .error (placed stop.path pos e, stop))
        | (.ok (v, .ok ()), _) => content V path rest v := by
  rw [content]
  have hi : (infoOf path ⟨name, attrs, ns, pos, ch, ep⟩ : ElemInfo) = { name, ns, depth := (path ++ [({ name, pos } : StackElem)]).length } := by
    simp [infoOf]
  rw [hi]
  generalize V.onElem v _ = a
  have key : ∀ r : Except Fault (Except Fault (σ × Except VErr Unit) × Stop),
      (match r with
        | .error f => .error f
        | .ok (.error f, _) => .error f
        | .ok (.ok (v, .error (.propagate e)), stop) => .ok (v, .error (e, stop))
        | .ok (.ok (v, .error (.wrap e)), stop) =>
          .ok (v, .error (({ kind := .deserializer e, stack := stop.path, pos } : Error), stop))
        | .ok (.ok (v, .ok ()), _) => content V path rest v) = (r.bind fun r =>
        match r with
        | (.error f, _) => .error f
        | (.ok (v, .error e), stop) => .ok (v, .error (placed stop.path pos e, stop))
        | (.ok (v, .ok ()), _) => content V path rest v : Except Fault (σ × Except (Error × Stop) Unit)) := by
    intro r
    rcases r with f | ⟨f | ⟨v, e | u⟩, stop⟩
    · rfl
    · rfl
    · cases e <;> rfl
    · rfl
  cases a with
  | done r => exact key _
  | readString k => exact key _
  | readTo sub k => exact key _

theorem content_error (V : Visitor σ) (path : List StackElem) (F : Forest) (v : σ) (E : Error) (stop : Stop) :
    (∃ v', content V path F v = .ok (v', .error (E, stop))) ↔
      ∃ F1 G v1 v', okContent (content V path F1 v) = some v1 ∧
        ((∃ s cd pos e, F = F1.append (.chars s cd pos G) ∧ V.onChars v1 s pos = .ok (v', .error e) ∧
            E = { kind := .deserializer e, stack := path, pos } ∧ stop = { path, pos }) ∨
         (∃ (y : Elem) (e : VErr), F = F1.append (.elem y.name y.attrs y.ns y.pos y.children y.endPos G) ∧
            perform V path y (V.onElem v1 (infoOf path y)) = .ok (.ok (v', .error e), stop) ∧ E = placed stop.path y.pos e)) := by
  induction F generalizing v with
  | nil =>
    constructor
    · rintro ⟨v', h⟩; rw [content] at h; cases h
    · rintro ⟨F1, G, v1, v', -, ⟨s, cd, pos, e, h, -⟩ | ⟨y, e, h, -⟩⟩ <;> cases F1 <;> cases h
  | misc m pos rest ih =>
    rw [content, ih]
    constructor
    · rintro ⟨F1, G, v1, v', h1, h2⟩
      refine ⟨.misc m pos F1, G, v1, v', by rw [content]; exact h1, ?_⟩
      rcases h2 with ⟨s, cd, pos, e, rfl, h⟩ | ⟨y, e, rfl, h⟩
      · exact .inl ⟨s, cd, pos, e, rfl, h⟩
      · exact .inr ⟨y, e, rfl, h⟩
    · rintro ⟨F1, G, v1, v', h1, h2⟩
      cases F1 with
      | misc m' pos' F1 =>
        rw [content] at h1
        refine ⟨F1, G, v1, v', h1, ?_⟩
        rcases h2 with ⟨s, cd, pos, e, hx, h⟩ | ⟨y, e, hx, h⟩
        · cases hx; exact .inl ⟨s, cd, pos, e, rfl, h⟩
        · cases hx; exact .inr ⟨y, e, rfl, h⟩
      | nil => rcases h2 with ⟨s, cd, pos, e, hx, h⟩ | ⟨y, e, hx, h⟩ <;> cases hx
      | chars => rcases h2 with ⟨s, cd, pos, e, hx, h⟩ | ⟨y, e, hx, h⟩ <;> cases hx
      | elem => rcases h2 with ⟨s, cd, pos, e, hx, h⟩ | ⟨y, e, hx, h⟩ <;> cases hx
  | chars s cd pos rest ih =>
    constructor
    · rintro ⟨v', h⟩
      rw [content] at h
      rcases hr : V.onChars v s pos with f | ⟨w, e | u⟩
      · rw [hr] at h; cases h
      · rw [hr] at h
        cases h
        exact ⟨.nil, rest, v, v', by rw [content]; rfl, .inl ⟨s, cd, pos, e, rfl, hr, rfl, rfl⟩⟩
      · rw [hr] at h
        obtain ⟨F1, G, v1, v', h1, h2⟩ := (ih w).mp ⟨v', h⟩
        refine ⟨.chars s cd pos F1, G, v1, v', by rw [content_chars, hr]; exact h1, ?_⟩
        rcases h2 with ⟨s, cd, pos, e, rfl, h3⟩ | ⟨y, e, rfl, h3⟩
        · exact .inl ⟨s, cd, pos, e, rfl, h3⟩
        · exact .inr ⟨y, e, rfl, h3⟩
    · rintro ⟨F1, G, v1, v', h1, h2⟩
      cases F1 with
      | nil =>
        rw [content] at h1
        cases h1
        rcases h2 with ⟨s, cd, pos, e, hx, h, rfl, rfl⟩ | ⟨y, e, hx, h⟩
        · cases hx
          rw [content, h]
          exact ⟨_, rfl⟩
        · cases hx
      | chars s' cd' pos' F1 =>
        rw [content_chars] at h1
        have hx : s = s' ∧ pos = pos' := by rcases h2 with ⟨_, _, _, _, hx, _⟩ | ⟨y, e, hx, h⟩ <;> cases hx <;> exact ⟨rfl, rfl⟩
        obtain ⟨rfl, rfl⟩ := hx
        rcases hr : V.onChars v s pos with f | ⟨w, e | u⟩
        · rw [hr] at h1; cases h1
        · rw [hr] at h1; cases h1
        · rw [hr] at h1
          rw [content, hr]
          refine (ih w).mpr ⟨F1, G, v1, v', h1, ?_⟩
          rcases h2 with ⟨s, cd, pos, e, hx, h⟩ | ⟨y, e, hx, h⟩
          · cases hx; exact .inl ⟨s, cd, pos, e, rfl, h⟩
          · cases hx; exact .inr ⟨y, e, rfl, h⟩
      | misc => rcases h2 with ⟨s, cd, pos, e, hx, h⟩ | ⟨y, e, hx, h⟩ <;> cases hx
      | elem => rcases h2 with ⟨s, cd, pos, e, hx, h⟩ | ⟨y, e, hx, h⟩ <;> cases hx
  | elem name attrs ns pos ch ep rest _ ih =>
    constructor
    · rintro ⟨v', h⟩
      rw [content_elem_eq] at h
      rcases hr : perform V path ⟨name, attrs, ns, pos, ch, ep⟩ (V.onElem v (infoOf path ⟨name, attrs, ns, pos, ch, ep⟩)) with f | ⟨f | ⟨w, e | u⟩, st⟩
      · rw [hr] at h; cases h
      · rw [hr] at h; cases h
      · rw [hr] at h
        cases h
        exact ⟨.nil, rest, v, v', by rw [content]; rfl, .inr ⟨⟨name, attrs, ns, pos, ch, ep⟩, e, rfl, hr, rfl⟩⟩
      · rw [hr] at h
        obtain ⟨F1, G, v1, v', h1, h2⟩ := (ih w).mp ⟨v', h⟩
        refine ⟨.elem name attrs ns pos ch ep F1, G, v1, v', by rw [content_elem, hr]; exact h1, ?_⟩
        rcases h2 with ⟨s, cd, pos, e, rfl, h3⟩ | ⟨y, e, rfl, h3⟩
        · exact .inl ⟨s, cd, pos, e, rfl, h3⟩
        · exact .inr ⟨y, e, rfl, h3⟩
    · rintro ⟨F1, G, v1, v', h1, h2⟩
      cases F1 with
      | nil =>
        rw [content] at h1
        cases h1
        rcases h2 with ⟨s, cd, pos, e, hx, h⟩ | ⟨y, e, hx, h, rfl⟩
        · cases hx
        · cases hx
          rw [content_elem_eq, show perform V path ⟨y.name, y.attrs, y.ns, y.pos, y.children, y.endPos⟩
            (V.onElem v (infoOf path ⟨y.name, y.attrs, y.ns, y.pos, y.children, y.endPos⟩)) = _ from h]
          exact ⟨_, rfl⟩
      | elem name' attrs' ns' pos' ch' ep' F1 =>
        have hx : Forest.elem name attrs ns pos ch ep .nil = Forest.elem name' attrs' ns' pos' ch' ep' .nil := by
          rcases h2 with ⟨_, _, _, _, hx, _⟩ | ⟨y, e, hx, h⟩ <;> cases hx <;> rfl
        cases hx
        rw [content_elem] at h1
        rw [content_elem_eq]
        revert h1
        rcases perform V path ⟨name, attrs, ns, pos, ch, ep⟩ (V.onElem v (infoOf path ⟨name, attrs, ns, pos, ch, ep⟩)) with f | ⟨f | ⟨w, e | u⟩, st⟩
        · intro h1; cases h1
        · intro h1; cases h1
        · intro h1; cases h1
        · intro h1
          refine (ih w).mpr ⟨F1, G, v1, v', h1, ?_⟩
          rcases h2 with ⟨s, cd, pos, e, hx, h⟩ | ⟨y, e, hx, h⟩
          · cases hx; exact .inl ⟨s, cd, pos, e, rfl, h⟩
          · cases hx; exact .inr ⟨y, e, rfl, h⟩
      | misc => rcases h2 with ⟨s, cd, pos, e, hx, h⟩ | ⟨y, e, hx, h⟩ <;> cases hx
      | chars => rcases h2 with ⟨s, cd, pos, e, hx, h⟩ | ⟨y, e, hx, h⟩ <;> cases hx

/-! ### One node -/

theorem delegateElement_refuse (V : Visitor σ) (here : List StackElem) (x : Elem) (emb : List (OCell τ α) → σ) (e : VErr) (stop : Stop)
    (fields : List (OField σ τ α)) :
    ∀ (pre : List (OField σ τ α)) (cpre : List (OCell τ α)) (os : List (Option α)) (l : List (Raw σ τ α × τ)), pre.length = cpre.length → FlatsFor fields l →
      ((∃ v, perform V here x (heardElem emb (delegateElement (pre ++ fields) (infoOf here x) (flatPos fields pre.length) (cpre ++ cellsOf fields os l))) =
        .ok (.ok (v, .error e), stop)) ↔ refuseElem V here x e stop l) := by
  induction fields with
  | nil =>
    intro pre cpre os l hlen hl
    cases (show l = [] from hl)
    simp [flatPos, delegateElement, heardElem, perform, refuseElem]
  | cons f fields ih =>
    intro pre cpre os l hlen hl
    by_cases hflat : ∃ raw, f.kind = .flatten raw
    · obtain ⟨raw, hk⟩ := hflat
      obtain ⟨nm, kd, df⟩ := f
      cases (show kd = .flatten raw from hk)
      obtain ⟨t, l, rfl, hl⟩ := hl
      have h1 : (pre ++ ⟨nm, .flatten raw, df⟩ :: fields)[pre.length]? = some ⟨nm, .flatten raw, df⟩ := by simp
      have h2 : ∀ t : τ, (cpre ++ cellsOf (⟨nm, .flatten raw, df⟩ :: fields) os ((raw, t) :: l))[pre.length]? = some (.flat t) := by
        intro t
        rw [hlen]
        simp [cellsOf]
      simp only [flatPos, delegateElement, h1, h2, refuseElem]
      rcases hr : raw.element t (infoOf here x) with e' | o
      · simp [heardElem, perform]
      · cases o with
        | back t' =>
          have hset : (cpre ++ cellsOf (⟨nm, .flatten raw, df⟩ :: fields) os ((raw, t) :: l)).set pre.length (.flat t') =
              (cpre ++ [.flat t']) ++ cellsOf fields os.tail l := by
            rw [hlen]
            simp [cellsOf]
          have := ih (pre ++ [⟨nm, .flatten raw, df⟩]) (cpre ++ [.flat t']) os.tail l (by simp [hlen]) hl
          simp only [List.length_append, List.length_cons, List.length_nil, Nat.zero_add, List.append_assoc, List.cons_append, List.nil_append] at this
          simp only [hset, List.append_assoc, List.cons_append, List.nil_append]
          exact this
        | take a =>
          simp only [heardElem, perform_map]
          rcases perform V here x a with e' | ⟨r, stop'⟩
          · simp [Except.map]
          · rcases r with e' | ⟨t', u | e' | _⟩ <;> simp [Except.map, heardRead]
    · have hc : ∀ l, cellsOf (f :: fields) os l = .plain (os.head?.join).isSome os.head?.join :: cellsOf fields os.tail l := by
        intro l
        simp only [cellsOf]
        cases hk : f.kind with
        | flatten raw => exact absurd ⟨raw, hk⟩ hflat
        | element i => rfl
        | «attribute» i => rfl
      have hl' : FlatsFor fields l := by
        rw [FlatsFor] at hl
        cases hk : f.kind with
        | flatten raw => exact absurd ⟨raw, hk⟩ hflat
        | element i => rw [hk] at hl; exact hl
        | «attribute» i => rw [hk] at hl; exact hl
      rw [flatPos_plain hflat]
      have := ih (pre ++ [f]) (cpre ++ [.plain (os.head?.join).isSome os.head?.join]) os.tail l (by simp [hlen]) hl'
      simp only [List.length_append, List.length_cons, List.length_nil, Nat.zero_add, List.append_assoc, List.cons_append, List.nil_append] at this
      simp only [hc]
      exact this

theorem delegateAttribute_refuse (n : EName) (emb : List (OCell τ α) → σ) (e : VErr) (fields : List (OField σ τ α)) :
    ∀ (pre : List (OField σ τ α)) (cpre : List (OCell τ α)) (os : List (Option α)) (l : List (Raw σ τ α × τ)) (v : String), pre.length = cpre.length →
      FlatsFor fields l →
      ((∃ s, heardText emb (delegateAttribute (pre ++ fields) n (flatPos fields pre.length) (cpre ++ cellsOf fields os l) v) = .ok (s, .error e)) ↔
        refuseAttr n e v l) := by
  induction fields with
  | nil =>
    intro pre cpre os l v hlen hl
    cases (show l = [] from hl)
    simp [flatPos, delegateAttribute, heardText, refuseAttr]
  | cons f fields ih =>
    intro pre cpre os l v hlen hl
    by_cases hflat : ∃ raw, f.kind = .flatten raw
    · obtain ⟨raw, hk⟩ := hflat
      obtain ⟨nm, kd, df⟩ := f
      cases (show kd = .flatten raw from hk)
      obtain ⟨t, l, rfl, hl⟩ := hl
      have h1 : (pre ++ ⟨nm, .flatten raw, df⟩ :: fields)[pre.length]? = some ⟨nm, .flatten raw, df⟩ := by simp
      have h2 : ∀ t : τ, (cpre ++ cellsOf (⟨nm, .flatten raw, df⟩ :: fields) os ((raw, t) :: l))[pre.length]? = some (.flat t) := by
        intro t
        rw [hlen]
        simp [cellsOf]
      simp only [flatPos, delegateAttribute, h1, h2, refuseAttr]
      rcases raw.attr t n v with e' | ⟨t', (_ | v) | e' | _⟩
      · simp [heardText]
      · simp [heardText]
      · have hset : (cpre ++ cellsOf (⟨nm, .flatten raw, df⟩ :: fields) os ((raw, t) :: l)).set pre.length (.flat t') =
            (cpre ++ [.flat t']) ++ cellsOf fields os.tail l := by
          rw [hlen]
          simp [cellsOf]
        have := ih (pre ++ [⟨nm, .flatten raw, df⟩]) (cpre ++ [.flat t']) os.tail l v (by simp [hlen]) hl
        simp only [List.length_append, List.length_cons, List.length_nil, Nat.zero_add, List.append_assoc, List.cons_append, List.nil_append] at this
        simp only [hset, List.append_assoc, List.cons_append, List.nil_append]
        exact this
      · simp [heardText]
      · simp [heardText]
    · have hc : ∀ l, cellsOf (f :: fields) os l = .plain (os.head?.join).isSome os.head?.join :: cellsOf fields os.tail l := by
        intro l
        simp only [cellsOf]
        cases hk : f.kind with
        | flatten raw => exact absurd ⟨raw, hk⟩ hflat
        | element i => rfl
        | «attribute» i => rfl
      have hl' : FlatsFor fields l := by
        rw [FlatsFor] at hl
        cases hk : f.kind with
        | flatten raw => exact absurd ⟨raw, hk⟩ hflat
        | element i => rw [hk] at hl; exact hl
        | «attribute» i => rw [hk] at hl; exact hl
      rw [flatPos_plain hflat]
      have := ih (pre ++ [f]) (cpre ++ [.plain (os.head?.join).isSome os.head?.join]) os.tail l v (by simp [hlen]) hl'
      simp only [List.length_append, List.length_cons, List.length_nil, Nat.zero_add, List.append_assoc, List.cons_append, List.nil_append] at this
      simp only [hc]
      exact this

theorem delegateCharacters_refuse (pos : Pos) (emb : List (OCell τ α) → σ) (e : DErr) (fields : List (OField σ τ α)) :
    ∀ (pre : List (OField σ τ α)) (cpre : List (OCell τ α)) (os : List (Option α)) (l : List (Raw σ τ α × τ)) (v : String), pre.length = cpre.length →
      FlatsFor fields l →
      ((∃ s, heardText emb (delegateCharacters (pre ++ fields) pos (flatPos fields pre.length) (cpre ++ cellsOf fields os l) v) = .ok (s, .error e)) ↔
        refuseChars pos e v l) := by
  induction fields with
  | nil =>
    intro pre cpre os l v hlen hl
    cases (show l = [] from hl)
    simp [flatPos, delegateCharacters, heardText, refuseChars]
  | cons f fields ih =>
    intro pre cpre os l v hlen hl
    by_cases hflat : ∃ raw, f.kind = .flatten raw
    · obtain ⟨raw, hk⟩ := hflat
      obtain ⟨nm, kd, df⟩ := f
      cases (show kd = .flatten raw from hk)
      obtain ⟨t, l, rfl, hl⟩ := hl
      have h1 : (pre ++ ⟨nm, .flatten raw, df⟩ :: fields)[pre.length]? = some ⟨nm, .flatten raw, df⟩ := by simp
      have h2 : ∀ t : τ, (cpre ++ cellsOf (⟨nm, .flatten raw, df⟩ :: fields) os ((raw, t) :: l))[pre.length]? = some (.flat t) := by
        intro t
        rw [hlen]
        simp [cellsOf]
      simp only [flatPos, delegateCharacters, h1, h2, refuseChars]
      rcases raw.characters t v pos with e' | ⟨t', (_ | v) | e' | _⟩
      · simp [heardText]
      · simp [heardText]
      · have hset : (cpre ++ cellsOf (⟨nm, .flatten raw, df⟩ :: fields) os ((raw, t) :: l)).set pre.length (.flat t') =
            (cpre ++ [.flat t']) ++ cellsOf fields os.tail l := by
          rw [hlen]
          simp [cellsOf]
        have := ih (pre ++ [⟨nm, .flatten raw, df⟩]) (cpre ++ [.flat t']) os.tail l v (by simp [hlen]) hl
        simp only [List.length_append, List.length_cons, List.length_nil, Nat.zero_add, List.append_assoc, List.cons_append, List.nil_append] at this
        simp only [hset, List.append_assoc, List.cons_append, List.nil_append]
        exact this
      · simp [heardText]
      · simp [heardText]
    · have hc : ∀ l, cellsOf (f :: fields) os l = .plain (os.head?.join).isSome os.head?.join :: cellsOf fields os.tail l := by
        intro l
        simp only [cellsOf]
        cases hk : f.kind with
        | flatten raw => exact absurd ⟨raw, hk⟩ hflat
        | element i => rfl
        | «attribute» i => rfl
      have hl' : FlatsFor fields l := by
        rw [FlatsFor] at hl
        cases hk : f.kind with
        | flatten raw => exact absurd ⟨raw, hk⟩ hflat
        | element i => rw [hk] at hl; exact hl
        | «attribute» i => rw [hk] at hl; exact hl
      rw [flatPos_plain hflat]
      have := ih (pre ++ [f]) (cpre ++ [.plain (os.head?.join).isSome os.head?.join]) os.tail l v (by simp [hlen]) hl'
      simp only [List.length_append, List.length_cons, List.length_nil, Nat.zero_add, List.append_assoc, List.cons_append, List.nil_append] at this
      simp only [hc]
      exact this

theorem elem_declared_refuse (V : Visitor σ) (here : List StackElem) (x : Elem) (emb : List (OCell τ α) → σ) {fields : List (OField σ τ α)}
    (hD : Distinct fields) {p : Nat} {f : OField σ τ α} {impl : FieldImpl σ α} (hf : fields[p]? = some f) (hk : f.kind = .element impl)
    (hn : f.name.expanded = x.name.expanded) (os : List (Option α)) (l : List (Raw σ τ α × τ)) (hl : FlatsFor fields l) (e : VErr) (stop : Stop) :
    (∃ v, perform V here x (heardElem emb (structElement fields (cellsOf fields os l) (infoOf here x))) = .ok (.ok (v, .error e), stop)) ↔
      match (os[p]?).join with
      | none => perform V here x (impl.init (infoOf here x)) = .ok (.err e, stop)
      | some v => ∃ w, perform V here x (impl.update v (infoOf here x)) = .ok ((w, .err e), stop) := by
  have hlook : lookup x.name.expanded (structTable (elemNames fields 0)) = .ok (some p) := by
    rcases lookup_elem fields x.name.expanded with ⟨q, g, i, h1, h2, h3, h4⟩ | ⟨_, h2⟩
    · rw [h1, hD p q f g hf h2 (hn.trans h4.symm) (.inl ⟨_, _, hk, h3⟩)]
    · exact absurd hn (h2 f (List.mem_of_getElem? hf) impl hk)
  have hnf : ∀ raw, f.kind ≠ .flatten raw := fun raw h => by rw [hk] at h; cases h
  have hcell := cellsOf_get hf hnf os l hl
  obtain ⟨nm, kd, df⟩ := f
  cases (show kd = .element impl from hk)
  unfold structElement
  simp only [show (infoOf here x).name = x.name from rfl, hlook, hf, hcell]
  cases hc : (os[p]?).join with
  | none =>
    simp only [Option.isSome_none, Bool.false_eq_true, if_false, heardElem, perform_map]
    rcases perform V here x (impl.init (infoOf here x)) with e' | ⟨r, stop'⟩
    · simp [Except.map]
    · rcases r with v | e' | _ <;> simp [Except.map, write, heardRead]
  | some v =>
    simp only [Option.isSome_some, if_true, heardElem, perform_map]
    rcases perform V here x (impl.update v (infoOf here x)) with e' | ⟨⟨w, r⟩, stop'⟩
    · simp [Except.map]
    · rcases r with u | e' | _ <;> simp [Except.map, heardRead]

theorem elem_undeclared_refuse (V : Visitor σ) (here : List StackElem) (x : Elem) (emb : List (OCell τ α) → σ) {fields : List (OField σ τ α)}
    (hn : ¬ IsElement fields x.name.expanded) (os : List (Option α)) (l : List (Raw σ τ α × τ)) (hl : FlatsFor fields l) (e : VErr) (stop : Stop) :
    (∃ v, perform V here x (heardElem emb (structElement fields (cellsOf fields os l) (infoOf here x))) = .ok (.ok (v, .error e), stop)) ↔
      refuseElem V here x e stop l := by
  have hlook : lookup x.name.expanded (structTable (elemNames fields 0)) = .ok none := by
    rcases lookup_elem fields x.name.expanded with ⟨q, g, i, h1, h2, h3, h4⟩ | ⟨h1, _⟩
    · exact absurd ⟨g, List.mem_of_getElem? h2, ⟨i, h3⟩, h4⟩ hn
    · exact h1
  unfold structElement
  simp only [show (infoOf here x).name = x.name from rfl, hlook]
  exact delegateElement_refuse V here x emb e stop fields [] [] os l rfl hl

theorem attr_declared_refuse (emb : List (OCell τ α) → σ) {fields : List (OField σ τ α)} (hD : Distinct fields) (a : XAttr)
    {p : Nat} {f : OField σ τ α} {impl : AttrImpl α} (hf : fields[p]? = some f) (hk : f.kind = .attribute impl)
    (hn : f.name.expanded = a.name.expanded) (os : List (Option α)) (l : List (Raw σ τ α × τ)) (hl : FlatsFor fields l) (e : VErr) :
    (∃ s, heardText emb (structAttribute fields (cellsOf fields os l) a.name.expanded a.value) = .ok (s, .error e)) ↔
      match (os[p]?).join with
      | none => impl.init a.value = .err e
      | some _ => e = .wrap (.duplicateAttribute a.name.expanded) := by
  have hlook : lookup a.name.expanded (structTable (attrNames fields 0)) = .ok (some p) := by
    rcases lookup_attr fields a.name.expanded with ⟨q, g, i, h1, h2, h3, h4⟩ | ⟨_, h2⟩
    · rw [h1, hD p q f g hf h2 (hn.trans h4.symm) (.inr ⟨_, _, hk, h3⟩)]
    · exact absurd hn (h2 f (List.mem_of_getElem? hf) impl hk)
  have hnf : ∀ raw, f.kind ≠ .flatten raw := fun raw h => by rw [hk] at h; cases h
  have hcell := cellsOf_get hf hnf os l hl
  obtain ⟨nm, kd, df⟩ := f
  cases (show kd = .attribute impl from hk)
  unfold structAttribute
  simp only [hlook, hf, hcell]
  cases hc : (os[p]?).join with
  | none =>
    simp only [Option.isSome_none, Bool.false_eq_true, if_false]
    rcases impl.init a.value with v | e' | _ <;> simp [Except.map, write, heardText]
  | some v => simp [heardText, eq_comm]

theorem attr_undeclared_refuse (emb : List (OCell τ α) → σ) {fields : List (OField σ τ α)} (a : XAttr)
    (hn : ¬ IsAttribute fields a.name.expanded) (os : List (Option α)) (l : List (Raw σ τ α × τ)) (hl : FlatsFor fields l) (e : VErr) :
    (∃ s, heardText emb (structAttribute fields (cellsOf fields os l) a.name.expanded a.value) = .ok (s, .error e)) ↔
      refuseAttr a.name.expanded e a.value l := by
  have hlook : lookup a.name.expanded (structTable (attrNames fields 0)) = .ok none := by
    rcases lookup_attr fields a.name.expanded with ⟨q, g, i, h1, h2, h3, h4⟩ | ⟨h1, _⟩
    · exact absurd ⟨g, List.mem_of_getElem? h2, ⟨i, h3⟩, h4⟩ hn
    · exact h1
  unfold structAttribute
  simp only [hlook]
  exact delegateAttribute_refuse a.name.expanded emb e fields [] [] os l a.value rfl hl

/-! ### What has been accepted -/

/-- All fields together. -/
theorem each_two {A B : OField σ τ α → Option α → Option (Option α)} (fields : List (OField σ τ α)) :
    (∃ os1 os2, each A fields (nones fields) = some os1 ∧ each B fields os1 = some os2) ↔ ∀ f ∈ fields, (A f none).bind (B f) ≠ none := by
  induction fields with
  | nil => exact ⟨fun _ _ h => (nomatch h), fun _ => ⟨[], [], rfl, rfl⟩⟩
  | cons f fields ih =>
    constructor
    · rintro ⟨os1, os2, h1, h2⟩
      obtain ⟨c1, cs1, rfl, g1, h1⟩ := each_cons.mp h1
      obtain ⟨c2, cs2, rfl, g2, h2⟩ := each_cons.mp h2
      intro g hg
      rcases List.mem_cons.mp hg with rfl | hg
      · rw [g1, Option.bind_some, g2]
        exact nofun
      · exact ih.mp ⟨cs1, cs2, h1, h2⟩ g hg
    · intro h
      obtain ⟨cs1, cs2, h1, h2⟩ := ih.mpr fun g hg => h g (List.mem_cons_of_mem _ hg)
      have hf := h f (List.mem_cons_self ..)
      cases g1 : A f none with
      | none => rw [g1] at hf; exact absurd rfl hf
      | some c1 =>
        rw [g1] at hf
        cases g2 : B f c1 with
        | none => exact absurd g2 hf
        | some c2 => exact ⟨c1 :: cs1, c2 :: cs2, each_cons.mpr ⟨_, _, rfl, g1, h1⟩, each_cons.mpr ⟨_, _, rfl, g2, h2⟩⟩

theorem each_two_get {A B : OField σ τ α → Option α → Option (Option α)} {fields : List (OField σ τ α)} {os1 os2 : List (Option α)}
    (h1 : each A fields (nones fields) = some os1) (h2 : each B fields os1 = some os2) {p : Nat} {f : OField σ τ α} (hf : fields[p]? = some f) :
    (A f none).bind (B f) = some (os2[p]?).join := by
  induction fields generalizing os1 os2 p with
  | nil => simp at hf
  | cons g fields ih =>
    obtain ⟨c1, cs1, rfl, g1, h1⟩ := each_cons.mp h1
    obtain ⟨c2, cs2, rfl, g2, h2⟩ := each_cons.mp h2
    cases p with
    | zero =>
      simp only [List.getElem?_cons_zero, Option.some.injEq] at hf
      subst hf
      rw [g1, Option.bind_some, g2]
      simp
    | succ p =>
      simp only [List.getElem?_cons_succ] at hf ⊢
      exact ih h1 h2 hf

theorem accepts_iff (V : Visitor σ) (here : List StackElem) (fields : List (OField σ τ α)) (as : List XAttr) (F : Forest) (l : List (Raw σ τ α × τ)) :
    Accepts V here fields as F l ↔ ∃ l1 os1 os2, flatAttrs fields as (newFlats fields) = some l1 ∧ each (fieldFillA as) fields (nones fields) = some os1 ∧
      flatContent V here fields F l1 = some l ∧ each (fieldFill V here F.children) fields os1 = some os2 := by
  have key : (∀ f ∈ fields, Took V here as F f) ↔ ∀ f ∈ fields, (fieldFillA as f none).bind (fieldFill V here F.children f) ≠ none := by
    refine forall_congr' fun f => forall_congr' fun _ => ?_
    unfold Took fieldFillA fieldFill
    cases f.kind with
    | flatten raw => exact ⟨fun _ => nofun, fun _ => trivial⟩
    | element impl => exact Iff.rfl
    | «attribute» impl =>
      simp only [fillA_none]
      cases fillAttr impl (as.filter fun a => a.name.expanded == f.name.expanded) <;> simp
  unfold Accepts
  rw [key, ← each_two]
  constructor
  · rintro ⟨⟨l1, h1, h2⟩, os1, os2, h3, h4⟩
    exact ⟨l1, os1, os2, h1, h3, h2, h4⟩
  · rintro ⟨l1, os1, os2, h1, h3, h2, h4⟩
    exact ⟨⟨l1, h1, h2⟩, os1, os2, h3, h4⟩

/-- The state after the attributes, and after some content. -/
theorem accepts_state {V : Visitor σ} {fields : List (OField σ τ α)} {emb : List (OCell τ α) → σ} (hV : Includes V (structRaw fields) emb)
    (hD : Distinct fields) (here : List StackElem) (pos : Pos) (as : List XAttr) (F : Forest) (s' : σ) :
    (∃ s, okContent (attributes V here pos as (emb (structRaw fields).new)) = some s ∧ okContent (content V here F s) = some s') ↔
      ∃ l1 os1 l os2, flatAttrs fields as (newFlats fields) = some l1 ∧ each (fieldFillA as) fields (nones fields) = some os1 ∧
        flatContent V here fields F l1 = some l ∧ each (fieldFill V here F.children) fields os1 = some os2 ∧ FlatsFor fields l ∧
        os2.length = fields.length ∧ s' = emb (cellsOf fields os2 l) := by
  have hnew : (structRaw fields).new = cellsOf fields (nones fields) (newFlats fields) := (cellsOf_new fields).1
  have hlen : (nones fields).length = fields.length := by simp [nones]
  have hA := attributes_struct hV hD here pos as (nones fields) hlen (newFlats fields) (cellsOf_new fields).2
  rw [hnew, hA.1]
  constructor
  · rintro ⟨s, h1, h2⟩
    cases hl : flatAttrs fields as (newFlats fields) with
    | none => rw [hl] at h1; cases h1
    | some l =>
      cases ho : each (fieldFillA as) fields (nones fields) with
      | none => rw [hl, ho] at h1; cases h1
      | some os =>
        rw [hl, ho] at h1
        simp only [both, Option.some.injEq] at h1
        subst h1
        have hC := content_struct hV hD here F os (each_length hlen ho) l (hA.2 l hl)
        rw [hC.1] at h2
        cases hl' : flatContent V here fields F l with
        | none => rw [hl'] at h2; cases h2
        | some l' =>
          cases ho' : each (fieldFill V here F.children) fields os with
          | none => rw [hl', ho'] at h2; cases h2
          | some os' =>
            rw [hl', ho'] at h2
            simp only [both, Option.some.injEq] at h2
            exact ⟨l, os, l', os', rfl, rfl, hl', ho', hC.2 l' hl', each_length (each_length hlen ho) ho', h2.symm⟩
  · rintro ⟨l1, os1, l, os2, h1, h2, h3, h4, -, -, rfl⟩
    have hC := content_struct hV hD here F os1 (each_length hlen h2) l1 (hA.2 l1 h1)
    refine ⟨emb (cellsOf fields os1 l1), ?_, ?_⟩
    · rw [h1, h2]; rfl
    · rw [hC.1, h3, h4]; rfl

/-! ### What is missing -/

theorem fill_ne (V : Visitor σ) (here : List StackElem) (impl : FieldImpl σ α) (xs : List Elem) (v : α) : fill V here impl (some v) xs ≠ some none := by
  induction xs generalizing v with
  | nil => intro h; cases h
  | cons x xs ih =>
    simp only [fill]
    cases changes V here x (impl.update v (infoOf here x)) with
    | none => exact nofun
    | some w => exact ih w

theorem fill_none_iff (V : Visitor σ) (here : List StackElem) (impl : FieldImpl σ α) (xs : List Elem) :
    fill V here impl none xs = some none ↔ xs = [] := by
  cases xs with
  | nil => simp [fill]
  | cons x xs =>
    simp only [fill]
    cases makes V here x (impl.init (infoOf here x)) with
    | none => simp
    | some v => simp [fill_ne]

theorem fillAttr_none_iff (impl : AttrImpl α) (as : List XAttr) : fillAttr impl as = some none ↔ as = [] := by
  match as with
  | [] => simp [fillAttr]
  | [a] =>
    simp only [fillAttr]
    cases impl.init a.value <;> simp
  | a :: b :: l => simp [fillAttr]

theorem lacks_iff (V : Visitor σ) (here : List StackElem) (x : Elem) {f : OField σ τ α} (hk : ∀ raw, f.kind ≠ .flatten raw) {c1 c2 : Option α}
    (h1 : fieldFillA x.attrs f none = some c1) (h2 : fieldFill V here x.children.children f c1 = some c2) : Lacks x f ↔ c2 = none := by
  unfold Lacks
  unfold fieldFillA at h1
  unfold fieldFill at h2
  cases hf : f.kind with
  | flatten raw => exact absurd hf (hk raw)
  | element impl =>
    rw [hf] at h1 h2
    cases h1
    simp only at h2 ⊢
    have := fill_none_iff V here impl (x.children.childrenNamed f.name.expanded)
    rw [← this, Forest.childrenNamed, h2, Option.some.injEq]
  | «attribute» impl =>
    rw [hf] at h1 h2
    cases h2
    simp only [fillA_none] at h1 ⊢
    have := fillAttr_none_iff impl (x.attrs.filter fun a => a.name.expanded == f.name.expanded)
    rw [h1, Option.some.injEq] at this
    rw [this, List.filter_eq_nil_iff]
    simp

theorem fail_cons {f : OField σ τ α} {fs : List (OField σ τ α)} {c : OCell τ α} {cs : List (OCell τ α)} {e : VErr} :
    (∃ cs', finalizeCells (f :: fs) (c :: cs) = .ok (cs', .err e)) ↔
      (∃ c', finalizeCell f c = .ok (c', .err e)) ∨ (∃ c', finalizeCell f c = .ok (c', .ok ())) ∧ ∃ cs', finalizeCells fs cs = .ok (cs', .err e) := by
  rw [finalizeCells]
  rcases finalizeCell f c with x | ⟨c', u | e' | _⟩
  · simp
  · simp only
    rcases finalizeCells fs cs with x | ⟨cs', r⟩ <;> simp [Except.map]
  · simp
  · simp

theorem fail_plain {f : OField σ τ α} (hk : ∀ raw, f.kind ≠ .flatten raw) (c : Option α) (e : VErr) :
    ((∃ c', finalizeCell f (.plain c.isSome c) = .ok (c', .err e)) ↔ c = none ∧ absent f = .err e) ∧
    ((∃ c', finalizeCell f (.plain c.isSome c) = .ok (c', .ok ())) ↔ ∃ v, c = some v ∨ c = none ∧ absent f = .ok v) := by
  obtain ⟨c', r, h1, h2, h3, h4, h5⟩ := finalizeCell_plain hk c
  rw [h1]
  cases c with
  | some a =>
    obtain ⟨rfl, rfl⟩ := h2 a rfl
    simp
  | none =>
    cases ha : absent f with
    | ok a =>
      obtain ⟨rfl, rfl⟩ := h3 rfl a ha
      simp
    | err e' => simp [h4 rfl e' ha]
    | panic => simp [h5 rfl ha]

theorem missing_iff (V : Visitor σ) (here : List StackElem) (x : Elem) (e : VErr) (fields : List (OField σ τ α)) (l : List (Raw σ τ α × τ))
    (hl : FlatsFor fields l) (os1 os2 : List (Option α)) (h1 : each (fieldFillA x.attrs) fields (nones fields) = some os1)
    (h2 : each (fieldFill V here x.children.children) fields os1 = some os2) :
    (∃ cs, finalizeCells fields (cellsOf fields os2 l) = .ok (cs, .err e)) ↔ Missing V here x e fields l := by
  induction fields generalizing os1 os2 l with
  | nil =>
    constructor
    · rintro ⟨cs, h⟩; cases h
    · intro h; cases h
  | cons f fields ih =>
    obtain ⟨c1, cs1, rfl, g1, h1⟩ := each_cons.mp h1
    obtain ⟨c2, cs2, rfl, g2, h2⟩ := each_cons.mp h2
    by_cases hflat : ∃ raw, f.kind = .flatten raw
    · obtain ⟨raw, hk⟩ := hflat
      rw [FlatsFor, hk] at hl
      obtain ⟨t, l', rfl, hl⟩ := hl
      have hc : cellsOf (f :: fields) (c2 :: cs2) ((raw, t) :: l') = .flat t :: cellsOf fields cs2 l' := by
        rw [cellsOf, hk]
        rfl
      rw [hc, fail_cons, ih l' hl cs1 cs2 h1 h2]
      have hfin : ∀ r, (∃ c', finalizeCell f (.flat t) = .ok (c', r)) ↔ ∃ t', raw.finalize t f.default = .ok (t', r) := by
        intro r
        unfold finalizeCell
        rw [hk]
        simp only
        rcases raw.finalize t f.default with x | ⟨t', r'⟩ <;> simp [Except.map]
      rw [hfin, hfin]
      constructor
      · rintro (⟨t', h⟩ | ⟨⟨t', h⟩, h'⟩)
        · exact .flat hk h
        · exact .laterFlat hk h h'
      · intro h
        cases h with
        | plain hla ha => rw [Lacks, hk] at hla; exact hla.elim
        | flat hk' h => rw [hk] at hk'; cases hk'; exact .inl ⟨_, h⟩
        | laterPlain hv h => exact absurd hk (((gets_iff V here x f _).mp hv).1 raw)
        | laterFlat hk' h h' => rw [hk] at hk'; cases hk'; exact .inr ⟨⟨_, h⟩, h'⟩
    · have hk : ∀ raw, f.kind ≠ .flatten raw := fun raw h => hflat ⟨raw, h⟩
      have hc : cellsOf (f :: fields) (c2 :: cs2) l = .plain c2.isSome c2 :: cellsOf fields cs2 l := by
        simp only [cellsOf]
        cases hk' : f.kind with
        | flatten raw => exact absurd hk' (hk raw)
        | element i => rfl
        | «attribute» i => rfl
      have hl' : FlatsFor fields l := by
        rw [FlatsFor] at hl
        cases hk' : f.kind with
        | flatten raw => exact absurd hk' (hk raw)
        | element i => rw [hk'] at hl; exact hl
        | «attribute» i => rw [hk'] at hl; exact hl
      rw [hc, fail_cons, ih l hl' cs1 cs2 h1 h2, (fail_plain hk c2 e).1, (fail_plain hk c2 e).2]
      have hla := lacks_iff V here x hk g1 g2
      have hg : ∀ v, (c2 = some v ∨ c2 = none ∧ absent f = .ok v) ↔ Gets V here x f v := by
        intro v
        rw [gets_iff]
        constructor
        · intro h; exact ⟨hk, c1, c2, g1, g2, h⟩
        · rintro ⟨-, d1, d2, k1, k2, h⟩
          rw [g1] at k1
          cases k1
          rw [g2] at k2
          cases k2
          exact h
      constructor
      · rintro (⟨hn, ha⟩ | ⟨⟨v, hv⟩, h⟩)
        · exact .plain (hla.mpr hn) ha
        · exact .laterPlain ((hg v).mp hv) h
      · intro h
        cases h with
        | plain hn ha => exact .inl ⟨hla.mp hn, ha⟩
        | flat hk' h => exact absurd hk' (hk _)
        | laterPlain hv h => exact .inr ⟨⟨_, (hg _).mpr hv⟩, h⟩
        | laterFlat hk' h h' => exact absurd hk' (hk _)

/-! ### A whole element -/

theorem finishRaw_error {τ' β : Type} (raw : Raw σ τ' β) (t : τ') (e : VErr) :
    finishRaw raw t = .ok (.error e) ↔ ∃ t', raw.finalize t none = .ok (t', .err e) := by
  unfold finishRaw
  rcases raw.finalize t none with x | ⟨t', u | e' | _⟩
  · simp
  · cases ho : raw.out t' <;> simp [ho]
  · simp
  · simp

theorem deserVia_error {τ' β : Type} (V : Visitor σ) (raw : Raw σ τ' β) (emb : τ' → σ) (proj : σ → Option τ') (path : List StackElem) (x : Elem) (e : VErr)
    (stop : Stop) :
    deser V (deserVia raw emb proj) path x = .ok (.error e, stop) ↔
      (∃ E, (∃ s, attributes V (path ++ [{ name := x.name, pos := x.pos }]) x.pos x.attrs (emb raw.new) = .ok (s, .error E)) ∧ e = .propagate E ∧
        stop = { path := path ++ [{ name := x.name, pos := x.pos }], pos := x.pos }) ∨
      ∃ s, okContent (attributes V (path ++ [{ name := x.name, pos := x.pos }]) x.pos x.attrs (emb raw.new)) = some s ∧
        ((∃ E, (∃ s', content V (path ++ [{ name := x.name, pos := x.pos }]) x.children s = .ok (s', .error (E, stop))) ∧ e = .propagate E) ∨
         ∃ s' t, okContent (content V (path ++ [{ name := x.name, pos := x.pos }]) x.children s) = some s' ∧ proj s' = some t ∧
           finishRaw raw t = .ok (.error e) ∧ stop = { path := path ++ [{ name := x.name, pos := x.pos }], pos := x.endPos }) := by
  simp only [okContent_some, deser, deserVia]
  generalize path ++ [({ name := x.name, pos := x.pos } : StackElem)] = here
  rcases attributes V here x.pos x.attrs (emb raw.new) with f | ⟨s, E | u⟩
  · simp
  · simp [eq_comm]
  · simp only
    rcases hc : content V here x.children s with f | ⟨s', ⟨E, stop'⟩ | u⟩
    · simp [hc]
    · simp only [Except.ok.injEq, Prod.mk.injEq, Except.error.injEq]
      constructor
      · rintro ⟨rfl, rfl⟩
        exact .inr ⟨s, ⟨rfl, trivial⟩, .inl ⟨E, ⟨s', hc⟩, rfl⟩⟩
      · rintro (⟨E', ⟨s1, -, h⟩, -⟩ | ⟨s1, ⟨rfl, -⟩, ⟨E', ⟨s2, h⟩, rfl⟩ | ⟨s2, t, h, -⟩⟩)
        · cases h
        · rw [hc] at h
          cases h
          exact ⟨rfl, rfl⟩
        · rw [hc] at h
          cases h
    · simp only
      cases hp : proj s' with
      | none => simp [hc, hp]
      | some t =>
        simp only
        rcases hf : finishRaw raw t with f | r
        · simp [hc, hp, hf]
        · simp [hc, hp, hf, eq_comm]

/-- What has been read for a field before. -/
theorem so_far {V : Visitor σ} {here : List StackElem} {as : List XAttr} {xs : List Elem} {fields : List (OField σ τ α)} {os1 os2 : List (Option α)}
    (h1 : each (fieldFillA as) fields (nones fields) = some os1) (h2 : each (fieldFill V here xs) fields os1 = some os2) {p : Nat} {f : OField σ τ α}
    (hf : fields[p]? = some f) :
    (∀ impl, f.kind = .element impl → fill V here impl none (xs.filter fun x => x.name.expanded == f.name.expanded) = some (os2[p]?).join) ∧
    ∀ impl, f.kind = .attribute impl → fillAttr impl (as.filter fun a => a.name.expanded == f.name.expanded) = some (os2[p]?).join := by
  have h := each_two_get h1 h2 hf
  unfold fieldFillA fieldFill at h
  refine ⟨fun impl hk => ?_, fun impl hk => ?_⟩
  · rw [hk] at h
    exact h
  · rw [hk] at h
    simp only [fillA_none] at h
    cases ha : fillAttr impl (as.filter fun a => a.name.expanded == f.name.expanded) with
    | none => rw [ha] at h; cases h
    | some c => rw [ha] at h; exact h

theorem refusesElem_iff {V : Visitor σ} {fields : List (OField σ τ α)} {emb : List (OCell τ α) → σ} (hV : Includes V (structRaw fields) emb)
    (hD : Distinct fields) {here : List StackElem} {as : List XAttr} {F : Forest} {os1 os2 : List (Option α)} {l : List (Raw σ τ α × τ)}
    (h1 : each (fieldFillA as) fields (nones fields) = some os1) (h2 : each (fieldFill V here F.children) fields os1 = some os2) (hl : FlatsFor fields l)
    (y : Elem) (e : VErr) (stop : Stop) :
    (∃ v', perform V here y (V.onElem (emb (cellsOf fields os2 l)) (infoOf here y)) = .ok (.ok (v', .error e), stop)) ↔
      RefusesElem V here fields F l y e stop := by
  rw [hV.elem]
  show (∃ v', perform V here y (heardElem emb (structElement fields (cellsOf fields os2 l) (infoOf here y))) = _) ↔ _
  unfold RefusesElem
  by_cases hd : IsElement fields y.name.expanded
  · obtain ⟨f, hf, ⟨impl, hk⟩, hn⟩ := hd
    obtain ⟨p, hp⟩ := List.getElem?_of_mem hf
    rw [elem_declared_refuse V here y emb hD hp hk hn os2 l hl]
    have hso := (so_far h1 h2 hp).1 impl hk
    constructor
    · intro h
      exact .inl ⟨f, hf, impl, hk, hn, _, hso, h⟩
    · rintro (⟨g, hg, impl', hk', hn', c, hc, h⟩ | ⟨h, -⟩)
      · obtain ⟨q, hq⟩ := List.getElem?_of_mem hg
        cases hD p q f g hp hq (hn.trans hn'.symm) (.inl ⟨_, _, hk, hk'⟩)
        rw [hp] at hq
        cases hq
        rw [hk] at hk'
        cases hk'
        rw [Forest.childrenNamed, hso] at hc
        cases hc
        exact h
      · exact absurd ⟨f, hf, ⟨impl, hk⟩, hn⟩ h
  · rw [elem_undeclared_refuse V here y emb hd os2 l hl]
    constructor
    · exact fun h => .inr ⟨hd, h⟩
    · rintro (⟨g, hg, impl', hk', hn', -⟩ | ⟨-, h⟩)
      · exact absurd ⟨g, hg, ⟨impl', hk'⟩, hn'⟩ hd
      · exact h

theorem refusesAttr_iff {V : Visitor σ} {fields : List (OField σ τ α)} {emb : List (OCell τ α) → σ} (hV : Includes V (structRaw fields) emb)
    (hD : Distinct fields) {here : List StackElem} {as : List XAttr} {os1 os2 : List (Option α)} {l : List (Raw σ τ α × τ)}
    (h1 : each (fieldFillA as) fields (nones fields) = some os1) (h2 : each (fieldFill V here []) fields os1 = some os2) (hl : FlatsFor fields l)
    (a : XAttr) (e : VErr) :
    (∃ v', V.onAttr (emb (cellsOf fields os2 l)) a.name.expanded a.value = .ok (v', .error e)) ↔ RefusesAttr fields as l a e := by
  rw [hV.attr]
  show (∃ v', heardText emb (structAttribute fields (cellsOf fields os2 l) _ _) = _) ↔ _
  unfold RefusesAttr
  by_cases hd : IsAttribute fields a.name.expanded
  · obtain ⟨f, hf, ⟨impl, hk⟩, hn⟩ := hd
    obtain ⟨p, hp⟩ := List.getElem?_of_mem hf
    rw [attr_declared_refuse emb hD a hp hk hn os2 l hl]
    have hso := (so_far h1 h2 hp).2 impl hk
    have hex : (∃ b ∈ as, b.name.expanded = a.name.expanded) ↔ (os2[p]?).join ≠ none := by
      have := fillAttr_none_iff impl (as.filter fun a => a.name.expanded == f.name.expanded)
      rw [hso, Option.some.injEq, List.filter_eq_nil_iff] at this
      rw [ne_eq, this, hn]
      simp
    have hm : (match (os2[p]?).join with
        | none => impl.init a.value = .err e
        | some _ => e = .wrap (.duplicateAttribute a.name.expanded)) ↔
        if (∃ b ∈ as, b.name.expanded = a.name.expanded) then e = .wrap (.duplicateAttribute a.name.expanded) else impl.init a.value = .err e := by
      cases hj : (os2[p]?).join with
      | none => rw [if_neg]; rw [hex, hj]; simp
      | some v => rw [if_pos]; rw [hex, hj]; exact nofun
    rw [hm]
    constructor
    · intro h
      exact .inl ⟨f, hf, impl, hk, hn, h⟩
    · rintro (⟨g, hg, impl', hk', hn', h⟩ | ⟨h, -⟩)
      · obtain ⟨q, hq⟩ := List.getElem?_of_mem hg
        cases hD p q f g hp hq (hn.trans hn'.symm) (.inr ⟨_, _, hk, hk'⟩)
        rw [hp] at hq
        cases hq
        rw [hk] at hk'
        cases hk'
        exact h
      · exact absurd ⟨f, hf, ⟨impl, hk⟩, hn⟩ h
  · rw [attr_undeclared_refuse emb a hd os2 l hl]
    constructor
    · exact fun h => .inr ⟨hd, h⟩
    · rintro (⟨g, hg, impl', hk', hn', -⟩ | ⟨-, h⟩)
      · exact absurd ⟨g, hg, ⟨impl', hk'⟩, hn'⟩ hd
      · exact h

theorem struct_fails {V : Visitor σ} {fields : List (OField σ τ α)} {emb : List (OCell τ α) → σ} (hV : Includes V (structRaw fields) emb)
    (hD : Distinct fields) {proj : σ → Option (List (OCell τ α))} (hp : ∀ t, proj (emb t) = some t) (path : List StackElem) (x : Elem) (e : VErr)
    (stop : Stop) :
    deser V (deserVia (structRaw fields) emb proj) path x = .ok (.error e, stop) ↔
      StructFails V (path ++ [{ name := x.name, pos := x.pos }]) fields x e stop := by
  rw [deserVia_error]
  generalize path ++ [({ name := x.name, pos := x.pos } : StackElem)] = here
  have hchars : ∀ (os : List (Option α)) (l : List (Raw σ τ α × τ)), FlatsFor fields l → ∀ s pos e,
      (∃ v', V.onChars (emb (cellsOf fields os l)) s pos = .ok (v', .error e)) ↔ refuseChars pos e s l := by
    intro os l hl s pos e
    rw [hV.chars]
    exact delegateCharacters_refuse pos emb e fields [] [] os l s rfl hl
  constructor
  · rintro (⟨E, h, rfl, rfl⟩ | ⟨s, hs, ⟨E, h, rfl⟩ | ⟨s', t, h1, h2, h3, rfl⟩⟩)
    · obtain ⟨as1, a, bs, v1, v', e, hx, h1, h2, rfl⟩ := (attributes_error _ _ _ _ _ _).mp h
      obtain ⟨l1, os1, l, os2, k1, k2, k3, k4, hl, -, rfl⟩ := (accepts_state hV hD here x.pos as1 .nil v1).mp ⟨v1, h1, by rw [content]; rfl⟩
      exact .attr as1 a bs l e hx ((accepts_iff ..).mpr ⟨l1, os1, os2, k1, k2, k3, k4⟩) ((refusesAttr_iff hV hD k2 k4 hl a e).mp ⟨v', h2⟩)
    · obtain ⟨F1, G, v1, v', h1, h2⟩ := (content_error _ _ _ _ _ _).mp h
      obtain ⟨l1, os1, l, os2, k1, k2, k3, k4, hl, -, rfl⟩ := (accepts_state hV hD here x.pos x.attrs F1 v1).mp ⟨s, hs, h1⟩
      have hacc : Accepts V here fields x.attrs F1 l := (accepts_iff ..).mpr ⟨l1, os1, os2, k1, k2, k3, k4⟩
      rcases h2 with ⟨str, cd, pos, e, hx, h2, rfl, rfl⟩ | ⟨y, e, hx, h2, rfl⟩
      · exact .chars F1 str cd pos G l e hx hacc ((hchars os2 l hl str pos e).mp ⟨v', h2⟩)
      · exact .elem F1 y G l e stop hx hacc ((refusesElem_iff hV hD k2 k4 hl y e stop).mp ⟨v', h2⟩)
    · obtain ⟨l1, os1, l, os2, k1, k2, k3, k4, hl, -, rfl⟩ := (accepts_state hV hD here x.pos x.attrs x.children s').mp ⟨s, hs, h1⟩
      rw [hp] at h2
      cases h2
      rw [finishRaw_error] at h3
      exact .missing l e ((accepts_iff ..).mpr ⟨l1, os1, os2, k1, k2, k3, k4⟩) ((missing_iff V here x e fields l hl os1 os2 k2 k4).mp h3)
  · intro h
    -- what has been accepted leads to a state
    have hstate : ∀ as F l, Accepts V here fields as F l → ∃ s os1 os2, okContent (attributes V here x.pos as (emb (structRaw fields).new)) = some s ∧
        okContent (content V here F s) = some (emb (cellsOf fields os2 l)) ∧ each (fieldFillA as) fields (nones fields) = some os1 ∧
        each (fieldFill V here F.children) fields os1 = some os2 ∧ FlatsFor fields l := by
      intro as F l hacc
      obtain ⟨l1, os1, os2, k1, k2, k3, k4⟩ := (accepts_iff ..).mp hacc
      have hlen : (nones fields).length = fields.length := by simp [nones]
      have hA := attributes_struct hV hD here x.pos as (nones fields) hlen (newFlats fields) (cellsOf_new fields).2
      have hC := content_struct hV hD here F os1 (each_length hlen k2) l1 (hA.2 l1 k1)
      have hl := hC.2 l k3
      obtain ⟨s, hs, hs'⟩ := (accepts_state hV hD here x.pos as F (emb (cellsOf fields os2 l))).mpr
        ⟨l1, os1, l, os2, k1, k2, k3, k4, hl, each_length (each_length hlen k2) k4, rfl⟩
      exact ⟨s, os1, os2, hs, hs', k2, k4, hl⟩
    cases h with
    | attr as a bs l e hx ha h =>
      obtain ⟨s, os1, os2, hs, hs', k2, k4, hl⟩ := hstate as .nil l ha
      rw [content] at hs'
      cases hs'
      obtain ⟨v', h⟩ := (refusesAttr_iff hV hD k2 k4 hl a e).mpr h
      exact .inl ⟨_, (attributes_error _ _ _ _ _ _).mpr ⟨as, a, bs, _, v', e, hx, hs, h, rfl⟩, rfl, rfl⟩
    | chars F str cd pos G l e hx ha h =>
      obtain ⟨s, os1, os2, hs, hs', k2, k4, hl⟩ := hstate x.attrs F l ha
      obtain ⟨v', h⟩ := (hchars os2 l hl str pos e).mpr h
      exact .inr ⟨s, hs, .inl ⟨_, (content_error _ _ _ _ _ _).mpr ⟨F, G, _, v', hs', .inl ⟨str, cd, pos, e, hx, h, rfl, rfl⟩⟩, rfl⟩⟩
    | elem F y G l e _ hx ha h =>
      obtain ⟨s, os1, os2, hs, hs', k2, k4, hl⟩ := hstate x.attrs F l ha
      obtain ⟨v', h⟩ := (refusesElem_iff hV hD k2 k4 hl y e stop).mpr h
      exact .inr ⟨s, hs, .inl ⟨_, (content_error _ _ _ _ _ _).mpr ⟨F, G, _, v', hs', .inr ⟨y, e, hx, h, rfl⟩⟩, rfl⟩⟩
    | missing l _ ha h =>
      obtain ⟨s, os1, os2, hs, hs', k2, k4, hl⟩ := hstate x.attrs x.children l ha
      exact .inr ⟨s, hs, .inr ⟨_, _, hs', hp _, (finishRaw_error ..).mpr ((missing_iff V here x e fields l hl os1 os2 k2 k4).mpr h), rfl⟩⟩

/-! ### Enums -/

/-- No variant among the children. -/
theorem enumFill_empty (V : Visitor σ) (here : List StackElem) {vs : List (OVariant σ α)} (xs : List Elem) :
    enumFill V here vs none xs = some none ↔ ∀ x ∈ xs, variantFor vs x.name.expanded = none := by
  have hsome : ∀ (xs : List Elem) i p, enumFill V here vs (some (i, p)) xs ≠ some none := by
    intro xs
    induction xs with
    | nil => intro i p h; cases h
    | cons x xs ih =>
      intro i p
      simp only [enumFill]
      split
      · exact ih i p
      · split
        · split
          · intro h
            obtain ⟨q, -, h⟩ := Option.bind_eq_some_iff.mp h
            exact ih _ _ h
          · exact ih _ _
        · exact nofun
  induction xs with
  | nil => simp [enumFill]
  | cons x xs ih =>
    simp only [enumFill, List.forall_mem_cons]
    cases hv : variantFor vs x.name.expanded with
    | none => simpa using ih
    | some w =>
      obtain ⟨i, v⟩ := w
      simp only [reduceCtorEq, false_and, iff_false]
      cases v.payload with
      | none => exact hsome xs i none
      | some impl =>
        intro h
        obtain ⟨q, -, h⟩ := Option.bind_eq_some_iff.mp h
        exact hsome _ _ _ h

theorem noVariant_iff (V : Visitor σ) (here : List StackElem) {vs : List (OVariant σ α)} (F : Forest) :
    NoVariant vs F ↔ enumFill V here vs none F.children = some none := by
  rw [enumFill_empty]
  unfold NoVariant Forest.childrenNamed
  constructor
  · intro h x hx
    cases hv : variantFor vs x.name.expanded with
    | none => rfl
    | some w =>
      obtain ⟨hi, hn⟩ := variantFor_some hv
      have := List.filter_eq_nil_iff.mp (h w.2 (List.mem_of_getElem? hi)) x hx
      simp [hn] at this
  · intro h w hw
    rw [List.filter_eq_nil_iff]
    intro x hx he
    exact variantFor_none (h x hx) w hw (eq_of_beq he).symm

theorem chosen_iff (V : Visitor σ) (here : List StackElem) {vs : List (OVariant σ α)} (hs : Searchable vs) (F : Forest) (i : Nat) (var : OVariant σ α)
    (hi : vs[i]? = some var) (p : Option α) : Chosen V here vs F var p ↔ enumFill V here vs none F.children = some (some (i, p)) := by
  rw [enumFill_none V here hs]
  have hall : (∀ x ∈ F.children, ∀ w ∈ vs, w.name.expanded = x.name.expanded → w.name.expanded = var.name.expanded) ↔
      ∀ w ∈ vs, F.childrenNamed w.name.expanded ≠ [] → w.name.expanded = var.name.expanded := by
    constructor
    · intro h w hw hne
      obtain ⟨x, hx⟩ := List.exists_mem_of_ne_nil _ hne
      obtain ⟨hx, he⟩ := List.mem_filter.mp hx
      exact h x hx w hw (eq_of_beq he).symm
    · intro h x hx w hw he
      refine h w hw (List.ne_nil_of_mem (List.mem_filter.mpr ⟨hx, ?_⟩))
      simp [he]
  unfold Chosen
  rw [← hall]
  constructor
  · rintro ⟨h1, h2, h3⟩
    exact ⟨var, hi, h1, h2, h3⟩
  · rintro ⟨v, hv, h1, h2, h3⟩
    rw [hi] at hv
    cases hv
    exact ⟨h1, h2, h3⟩

theorem enum_step_refuse (V : Visitor σ) (here : List StackElem) {vs : List (OVariant σ α)} (hs : Searchable vs) (emb : OEnum α → σ) (x : Elem)
    (c : Option (Nat × Option α)) (hc : Fits vs c) (e : VErr) (stop : Stop) :
    (∃ v, perform V here x (heardElem emb (enumElement vs (enumSt c) (infoOf here x))) = .ok (.ok (v, .error e), stop)) ↔
      ∃ j w, variantFor vs x.name.expanded = some (j, w) ∧
        match c with
        | none => ∃ impl, w.payload = some impl ∧ perform V here x (impl.init (infoOf here x)) = .ok (.err e, stop)
        | some (i, p) =>
          if j = i then ∃ impl q q', w.payload = some impl ∧ p = some q ∧ perform V here x (impl.update q (infoOf here x)) = .ok ((q', .err e), stop)
          else ∃ v, vs[i]? = some v ∧ e = .wrap (.unexpectedElement x.name.expanded v.name.expanded) ∧
            stop = { path := here ++ [{ name := x.name, pos := x.pos }], pos := x.pos } := by
  unfold enumElement
  rw [show (infoOf here x).name = x.name from rfl, lookup_variantFor hs]
  cases c with
  | none =>
    simp only [enumSt, Option.isSome_none, Bool.false_eq_true, if_false]
    cases hv : variantFor vs x.name.expanded with
    | none => simp [heardElem, perform]
    | some w =>
      obtain ⟨i, v⟩ := w
      have hi := (variantFor_some hv).1
      simp only [Option.map_some, hi]
      cases hpl : v.payload with
      | none =>
        simp only [heardElem, Action.map, perform, Except.map, write, heardRead, Option.some.injEq, Prod.mk.injEq]
        constructor
        · rintro ⟨_, h⟩; cases h
        · rintro ⟨j, w, ⟨rfl, rfl⟩, impl, h, -⟩
          rw [hpl] at h
          cases h
      | some impl =>
        simp only [heardElem, perform_map, Option.some.injEq, Prod.mk.injEq]
        constructor
        · rintro ⟨s, h⟩
          refine ⟨i, v, ⟨rfl, rfl⟩, impl, hpl, ?_⟩
          rcases hr : perform V here x (impl.init (infoOf here x)) with e' | ⟨r, stop'⟩
          · rw [hr] at h; cases h
          · rw [hr] at h
            rcases r with q | e' | _
            · simp [Except.map, write, heardRead] at h
            · simp [Except.map, heardRead] at h
              obtain ⟨⟨-, rfl⟩, rfl⟩ := h
              rfl
            · simp [Except.map, heardRead] at h
        · rintro ⟨j, w, ⟨rfl, rfl⟩, impl', h, h'⟩
          rw [hpl] at h
          cases h
          rw [h']
          exact ⟨_, rfl⟩
  | some h =>
    obtain ⟨i, p⟩ := h
    obtain ⟨v, hi, hp⟩ := hc
    simp only [enumSt, Option.isSome_some, if_true, hi]
    cases hv : variantFor vs x.name.expanded with
    | none => simp [heardElem, Action.map, perform, heardRead]
    | some w =>
      obtain ⟨j, w⟩ := w
      simp only [Option.map_some, Option.some.injEq, Prod.mk.injEq]
      by_cases hj : j = i
      · subst hj
        have hw := (variantFor_some hv).1
        rw [hi] at hw
        cases hw
        simp only [if_true]
        constructor
        · rintro ⟨s, h⟩
          refine ⟨j, v, ⟨rfl, rfl⟩, ?_⟩
          rw [if_pos rfl]
          cases hpl : v.payload with
          | none =>
            rw [hpl] at hp h
            cases p with
            | some p => cases hp
            | none => simp [heardElem, Action.map, perform, heardRead] at h
          | some impl =>
            rw [hpl] at hp h
            cases p with
            | none => cases hp
            | some p =>
              simp only [heardElem, perform_map] at h
              rcases hr : perform V here x (impl.update p (infoOf here x)) with e' | ⟨⟨q, r⟩, stop'⟩
              · rw [hr] at h; cases h
              · rw [hr] at h
                rcases r with u | e' | _
                · simp [Except.map, heardRead] at h
                · simp [Except.map, heardRead] at h
                  obtain ⟨⟨-, rfl⟩, rfl⟩ := h
                  exact ⟨impl, p, q, rfl, rfl, hr⟩
                · simp [Except.map, heardRead] at h
        · rintro ⟨j', w', ⟨rfl, rfl⟩, h⟩
          rw [if_pos rfl] at h
          obtain ⟨impl, q, q', hpl, rfl, h⟩ := h
          simp only [hpl, heardElem, perform_map, h]
          exact ⟨_, rfl⟩
      · simp only [hj, if_false, heardElem, Action.map, perform, heardRead]
        constructor
        · rintro ⟨s, h⟩
          cases h
          refine ⟨j, w, ⟨rfl, rfl⟩, ?_⟩
          rw [if_neg hj]
          exact ⟨v, rfl, rfl, rfl⟩
        · rintro ⟨j', w', ⟨rfl, rfl⟩, h⟩
          rw [if_neg hj] at h
          obtain ⟨v', h', rfl, rfl⟩ := h
          cases h'
          exact ⟨_, rfl⟩

theorem variantFor_of_mem {vs : List (OVariant σ α)} (hs : Searchable vs) {w : OVariant σ α} (hw : w ∈ vs) :
    ∃ j, variantFor vs w.name.expanded = some (j, w) ∧ vs[j]? = some w := by
  cases hv : variantFor vs w.name.expanded with
  | none => exact absurd rfl (variantFor_none hv w hw)
  | some u =>
    obtain ⟨j, u⟩ := u
    obtain ⟨hj, hn⟩ := variantFor_some hv
    obtain ⟨i, hi⟩ := List.getElem?_of_mem hw
    cases hs.distinct j i u w hj hi hn
    rw [hi] at hj
    cases hj
    exact ⟨j, rfl, hi⟩

theorem enumFill_fits (V : Visitor σ) (here : List StackElem) {vs : List (OVariant σ α)} (hs : Searchable vs) (xs : List Elem) (c : Option (Nat × Option α))
    (h : enumFill V here vs none xs = some c) : Fits vs c := by
  cases c with
  | none => trivial
  | some c =>
    obtain ⟨i, q⟩ := c
    obtain ⟨v, hi, -, -, h⟩ := (enumFill_none V here hs xs i q).mp h
    refine ⟨v, hi, ?_⟩
    cases hp : v.payload with
    | none => rw [hp] at h; simp only at h; rw [h]; rfl
    | some impl =>
      rw [hp] at h
      obtain ⟨p, rfl, -⟩ := h
      rfl

theorem enum_fails {V : Visitor σ} {ident : String} {vs : List (OVariant σ α)} {emb : OEnum α → σ} (hV : Includes V (enumRaw ident vs) emb)
    (hs : Searchable vs) {proj : σ → Option (OEnum α)} (hp : ∀ t, proj (emb t) = some t) (path : List StackElem) (x : Elem) (e : VErr) (stop : Stop) :
    deser V (deserVia (enumRaw ident vs) emb proj) path x = .ok (.error e, stop) ↔
      EnumFails V (path ++ [{ name := x.name, pos := x.pos }]) ident vs x e stop := by
  rw [deserVia_error]
  generalize path ++ [({ name := x.name, pos := x.pos } : StackElem)] = here
  have hA := attributes_enum hV here x.pos x.attrs (enumRaw ident vs).new
  have hC := fun F => content_enum hV hs here F none trivial
  have hch : ∀ st s pos, V.onChars (emb st) s pos = .ok (emb st, .ok ()) := fun st s pos => by rw [hV.chars]; rfl
  have hfin : ∀ c, finishRaw (enumRaw ident vs) (enumSt c) = .ok (.error e) ↔ c = none ∧ e = .wrap (.cantBeEmpty ident) := by
    intro c
    rw [finishRaw_error]
    cases c with
    | none => simp [enumRaw, enumFinalize, enumSt, eq_comm]
    | some q => simp [enumRaw, enumFinalize, enumSt]
  have hel : ∀ c y, V.onElem (emb (enumSt c)) (infoOf here y) = heardElem emb (enumElement vs (enumSt c) (infoOf here y)) := fun c y => hV.elem _ _
  have hstep := fun c y e stop hc => enum_step_refuse V here hs emb y c hc e stop
  constructor
  · rintro (⟨E, ⟨s, h⟩, -, -⟩ | ⟨s, hs', h⟩)
    · rw [h] at hA; cases hA
    · rw [hA] at hs'
      cases hs'
      rw [show (enumRaw ident vs).new = enumSt none from rfl] at h
      rcases h with ⟨E, h, rfl⟩ | ⟨s', t, h1, h2, h3, rfl⟩
      · obtain ⟨F, G, v1, v', h1, h2⟩ := (content_error _ _ _ _ _ _).mp h
        rw [hC] at h1
        obtain ⟨c, hc, rfl⟩ := Option.map_eq_some_iff.mp h1
        have hfit := enumFill_fits V here hs _ c hc
        rcases h2 with ⟨str, cd, pos, e, hx, h2, rfl, rfl⟩ | ⟨y, e, hx, h2, rfl⟩
        · rw [hch] at h2; cases h2
        · rw [hel] at h2
          obtain ⟨j, w, hv, h3⟩ := (hstep c y e stop hfit).mp ⟨v', h2⟩
          obtain ⟨hj, hn⟩ := variantFor_some hv
          have hw := List.mem_of_getElem? hj
          cases c with
          | none =>
            obtain ⟨impl, hpl, h3⟩ := h3
            exact .init F y G w impl e stop hx ((noVariant_iff V here F).mpr hc) hw hn hpl h3
          | some c =>
            obtain ⟨i, p⟩ := c
            simp only at h3
            by_cases hji : j = i
            · subst hji
              rw [if_pos rfl] at h3
              obtain ⟨impl, q, q', hpl, rfl, h3⟩ := h3
              exact .update F y G w impl q q' e stop hx ((chosen_iff V here hs F j w hj (some q)).mpr hc) hw hn hpl h3
            · rw [if_neg hji] at h3
              obtain ⟨v, hi, rfl, rfl⟩ := h3
              refine .other F y G v w p hx ((chosen_iff V here hs F i v hi p).mpr hc) (List.mem_of_getElem? hi) hw hn ?_
              exact fun he => hji (hs.distinct j i w v hj hi he)
      · rw [hC] at h1
        obtain ⟨c, hc, rfl⟩ := Option.map_eq_some_iff.mp h1
        rw [hp] at h2
        cases h2
        obtain ⟨rfl, rfl⟩ := (hfin c).mp h3
        exact .empty ((noVariant_iff V here _).mpr hc)
  · intro h
    refine .inr ⟨_, hA, ?_⟩
    rw [show (enumRaw ident vs).new = enumSt none from rfl]
    cases h with
    | init F y G var impl e _ hx hF hv hn hpl h =>
      have hc := (noVariant_iff V here F).mp hF
      obtain ⟨j, hj, -⟩ := variantFor_of_mem hs hv
      obtain ⟨v', h⟩ := (hstep none y e stop trivial).mpr ⟨j, var, by rw [← hn]; exact hj, impl, hpl, h⟩
      rw [← hel] at h
      exact .inl ⟨_, (content_error _ _ _ _ _ _).mpr ⟨F, G, emb (enumSt none), v', by rw [hC, hc]; rfl, .inr ⟨y, e, hx, h, rfl⟩⟩, rfl⟩
    | update F y G var impl q q' e _ hx hF hv hn hpl h =>
      obtain ⟨j, hj, hi⟩ := variantFor_of_mem hs hv
      have hc := (chosen_iff V here hs F j var hi (some q)).mp hF
      obtain ⟨v', h⟩ := (hstep (some (j, some q)) y e stop (enumFill_fits V here hs _ _ hc)).mpr
        ⟨j, var, by rw [← hn]; exact hj, by simp only [if_true]; exact ⟨impl, q, q', hpl, rfl, h⟩⟩
      rw [← hel] at h
      exact .inl ⟨_, (content_error _ _ _ _ _ _).mpr ⟨F, G, emb (enumSt (some (j, some q))), v', by rw [hC, hc]; rfl, .inr ⟨y, e, hx, h, rfl⟩⟩, rfl⟩
    | other F y G var w p hx hF hv hw hn hne =>
      obtain ⟨i, -, hi⟩ := variantFor_of_mem hs hv
      obtain ⟨j, hj, hj'⟩ := variantFor_of_mem hs hw
      have hc := (chosen_iff V here hs F i var hi p).mp hF
      have hji : j ≠ i := fun h => by
        subst h
        rw [hi] at hj'
        cases hj'
        exact hne rfl
      obtain ⟨v', h⟩ := (hstep (some (i, p)) y (.wrap (.unexpectedElement y.name.expanded var.name.expanded))
        { path := here ++ [{ name := y.name, pos := y.pos }], pos := y.pos } (enumFill_fits V here hs _ _ hc)).mpr
        ⟨j, w, by rw [← hn]; exact hj, by simp only [hji, if_false]; exact ⟨var, hi, by simp⟩⟩
      rw [← hel] at h
      exact .inl ⟨_, (content_error _ _ _ _ _ _).mpr ⟨F, G, emb (enumSt (some (i, p))), v', by rw [hC, hc]; rfl,
        .inr ⟨y, .wrap (.unexpectedElement y.name.expanded var.name.expanded), hx, h, rfl⟩⟩, rfl⟩
    | empty hF =>
      have hc := (noVariant_iff V here _).mp hF
      exact .inr ⟨emb (enumSt none), enumSt none, by rw [hC, hc]; rfl, hp _, (hfin none).mpr ⟨rfl, rfl⟩, rfl⟩

end SX.Open
