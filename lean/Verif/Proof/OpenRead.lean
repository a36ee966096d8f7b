import Verif.Spec.OpenRead
import Verif.Proof.OpenFields
import Verif.Proof.OpenEnum

/-
Derived visitors with fields of arbitrary types, run by the reader.
-/
namespace SX.Open
open SX.Spec SX.Spec.Open

variable {σ τ α : Type}

theorem perform_map {ρ ρ' : Type} (V : Visitor σ) (path : List StackElem) (x : Elem) (g : ρ → ρ') (a : Action σ ρ) :
    perform V path x (a.map g) = (perform V path x a).map fun r => (g r.1, r.2) := by
  cases a with
  | done r => rfl
  | readString k => rfl
  | readTo sub k =>
    simp only [Action.map, perform]
    split
    · rfl
    · rfl
    · split <;> rfl

/-- The state after something that went well. -/
def okState : Except Fault (Except Fault (σ × Except VErr Unit) × Stop) → Option σ
  | .ok (.ok (v, .ok ()), _) => some v
  | _ => none

/-- The same for a whole content. -/
def okContent {ε : Type} : Except Fault (σ × Except ε Unit) → Option σ
  | .ok (v, .ok ()) => some v
  | _ => none

theorem okContent_some {ε : Type} {r : Except Fault (σ × Except ε Unit)} {v : σ} : okContent r = some v ↔ r = .ok (v, .ok ()) := by
  unfold okContent
  split
  · rename_i w
    constructor
    · rintro ⟨⟩; rfl
    · rintro ⟨⟩; rfl
  · rename_i hne
    constructor
    · rintro ⟨⟩
    · rintro rfl
      exact absurd rfl (hne v)

theorem content_elem (V : Visitor σ) (path : List StackElem) (name : QName) (attrs : List XAttr) (ns : NsMap) (pos : Pos) (ch : Forest) (ep : Pos)
    (rest : Forest) (v : σ) :
    okContent (content V path (.elem name attrs ns pos ch ep rest) v) =
      (okState (perform V path ⟨name, attrs, ns, pos, ch, ep⟩ (V.onElem v (infoOf path ⟨name, attrs, ns, pos, ch, ep⟩)))).bind fun v =>
        okContent (content V path rest v) := by
  rw [content]
  have hi : (infoOf path ⟨name, attrs, ns, pos, ch, ep⟩ : ElemInfo) = { name, ns, depth := (path ++ [({ name, pos } : StackElem)]).length } := by
    simp [infoOf]
  rw [hi]
  generalize V.onElem v _ = a
  have key : ∀ r : Except Fault (Except Fault (σ × Except VErr Unit) × Stop),
      okContent (match r with
        | .error f => .error f
        | .ok (.error f, _) => .error f
        | .ok (.ok (v, .error (.propagate e)), stop) => .ok (v, .error (e, stop))
        | .ok (.ok (v, .error (.wrap e)), stop) =>
          .ok (v, .error (({ kind := .deserializer e, stack := stop.path, pos } : Error), stop))
        | .ok (.ok (v, .ok ()), _) => content V path rest v) = (okState r).bind fun v => okContent (content V path rest v) := by
    intro r
    rcases r with f | ⟨f | ⟨v, e | u⟩, stop⟩
    · rfl
    · rfl
    · cases e <;> rfl
    · rfl
  cases a with
  | done r => exact key _
  | readString k => exact key _
  | readTo sub k => exact key _

theorem content_chars (V : Visitor σ) (path : List StackElem) (s : String) (cd : Bool) (pos : Pos) (rest : Forest) (v : σ) :
    okContent (content V path (.chars s cd pos rest) v) = (okContent (V.onChars v s pos)).bind fun v => okContent (content V path rest v) := by
  rw [content]
  rcases V.onChars v s pos with f | ⟨v, e | u⟩ <;> rfl

theorem attributes_cons (V : Visitor σ) (here : List StackElem) (pos : Pos) (a : XAttr) (as : List XAttr) (v : σ) :
    okContent (attributes V here pos (a :: as) v) =
      (okContent (V.onAttr v a.name.expanded a.value)).bind fun v => okContent (attributes V here pos as v) := by
  rw [attributes]
  rcases V.onAttr v a.name.expanded a.value with f | ⟨v, e | u⟩
  · rfl
  · cases e <;> rfl
  · rfl

/-! ### The memory of a struct -/

/-- The memory of a struct's visitor: of each field that is not flattened what has been read, and the visitors of the others. -/
def cellsOf : List (OField σ τ α) → List (Option α) → List (Raw σ τ α × τ) → List (OCell τ α)
  | [], _, _ => []
  | f :: fs, os, l =>
    match f.kind with
    | .flatten _ =>
      match l with
      | [] => []
      | (_, t) :: l => .flat t :: cellsOf fs os.tail l
    | _ => .plain (os.head?.join).isSome os.head?.join :: cellsOf fs os.tail l

/-- The flattened fields' implementations are the declared ones. -/
def FlatsFor : List (OField σ τ α) → List (Raw σ τ α × τ) → Prop
  | [], l => l = []
  | f :: fs, l =>
    match f.kind with
    | .flatten raw => ∃ t l', l = (raw, t) :: l' ∧ FlatsFor fs l'
    | _ => FlatsFor fs l

theorem delegateElement_flats (V : Visitor σ) (here : List StackElem) (x : Elem) (emb : List (OCell τ α) → σ) (fields : List (OField σ τ α)) :
    ∀ (pre : List (OField σ τ α)) (cpre : List (OCell τ α)) (os : List (Option α)) (l : List (Raw σ τ α × τ)), pre.length = cpre.length → FlatsFor fields l →
      okState (perform V here x (heardElem emb (delegateElement (pre ++ fields) (infoOf here x) (flatPos fields pre.length) (cpre ++ cellsOf fields os l)))) =
        (offerElem V here x l).map (fun l => emb (cpre ++ cellsOf fields os l)) ∧ ∀ l', offerElem V here x l = some l' → FlatsFor fields l' := by
  induction fields with
  | nil =>
    intro pre cpre os l hlen hl
    cases (show l = [] from hl)
    refine ⟨rfl, ?_⟩
    rintro l' ⟨⟩
    rfl
  | cons f fields ih =>
    intro pre cpre os l hlen hl
    by_cases hflat : ∃ raw, f.kind = .flatten raw
    · obtain ⟨raw, hk⟩ := hflat
      obtain ⟨nm, kd, df⟩ := f
      cases (show kd = .flatten raw from hk)
      obtain ⟨t, l, rfl, hl⟩ := hl
      have h1 : (pre ++ ⟨nm, .flatten raw, df⟩ :: fields)[pre.length]? = some ⟨nm, .flatten raw, df⟩ := by simp
      have h2 : ∀ t : τ, (cpre ++ cellsOf (⟨nm, .flatten raw, df⟩ :: fields) os ((raw, t) :: l))[pre.length]? = some (.flat t) := by
        intro t
        rw [hlen]
        simp [cellsOf]
      simp only [flatPos, delegateElement, h1, h2, offerElem]
      rcases hr : raw.element t (infoOf here x) with e | o
      · exact ⟨rfl, nofun⟩
      · cases o with
        | back t' =>
          have hset : (cpre ++ cellsOf (⟨nm, .flatten raw, df⟩ :: fields) os ((raw, t) :: l)).set pre.length (.flat t') =
              (cpre ++ [.flat t']) ++ cellsOf fields os.tail l := by
            rw [hlen]
            simp [cellsOf]
          have := ih (pre ++ [⟨nm, .flatten raw, df⟩]) (cpre ++ [.flat t']) os.tail l (by simp [hlen]) hl
          simp only [List.length_append, List.length_cons, List.length_nil, Nat.zero_add, List.append_assoc, List.cons_append, List.nil_append] at this
          simp only [hset, List.append_assoc, List.cons_append, List.nil_append]
          refine ⟨?_, ?_⟩
          · rw [this.1]
            cases offerElem V here x l <;> simp [cellsOf]
          · intro l' h
            obtain ⟨l'', h1, rfl⟩ := Option.map_eq_some_iff.mp h
            exact ⟨_, _, rfl, this.2 _ h1⟩
        | take a =>
          simp only [heardElem, perform_map]
          rcases perform V here x a with e | ⟨r, stop⟩
          · exact ⟨rfl, nofun⟩
          · rcases r with e | ⟨t', r⟩
            · exact ⟨rfl, nofun⟩
            · rcases r with u | e | _
              · have hset : (cpre ++ cellsOf (⟨nm, .flatten raw, df⟩ :: fields) os ((raw, t) :: l)).set pre.length (.flat t') =
                    cpre ++ cellsOf (⟨nm, .flatten raw, df⟩ :: fields) os ((raw, t') :: l) := by
                  rw [hlen]
                  simp [cellsOf]
                refine ⟨?_, ?_⟩
                · simp [Except.map, heardRead, okState, hset]
                · rintro l' ⟨⟩
                  exact ⟨_, _, rfl, hl⟩
              · exact ⟨rfl, nofun⟩
              · exact ⟨rfl, nofun⟩
    · have hc : ∀ l, cellsOf (f :: fields) os l = .plain (os.head?.join).isSome os.head?.join :: cellsOf fields os.tail l := by
        intro l
        simp only [cellsOf]
        cases hk : f.kind with
        | flatten raw => exact absurd ⟨raw, hk⟩ hflat
        | element i => rfl
        | «attribute» i => rfl
      have hl' : ∀ l, FlatsFor (f :: fields) l ↔ FlatsFor fields l := by
        intro l
        rw [FlatsFor]
        cases hk : f.kind with
        | flatten raw => exact absurd ⟨raw, hk⟩ hflat
        | element i => rfl
        | «attribute» i => rfl
      rw [flatPos_plain hflat]
      have := ih (pre ++ [f]) (cpre ++ [.plain (os.head?.join).isSome os.head?.join]) os.tail l (by simp [hlen]) ((hl' l).mp hl)
      simp only [List.length_append, List.length_cons, List.length_nil, Nat.zero_add, List.append_assoc, List.cons_append, List.nil_append] at this
      simp only [hc]
      exact ⟨this.1, fun l' h => (hl' l').mpr (this.2 l' h)⟩

theorem delegateAttribute_flats (n : EName) (emb : List (OCell τ α) → σ) (fields : List (OField σ τ α)) :
    ∀ (pre : List (OField σ τ α)) (cpre : List (OCell τ α)) (os : List (Option α)) (l : List (Raw σ τ α × τ)) (v : String), pre.length = cpre.length →
      FlatsFor fields l →
      okContent (heardText emb (delegateAttribute (pre ++ fields) n (flatPos fields pre.length) (cpre ++ cellsOf fields os l) v)) =
        (offerAttr n v l).map (fun l => emb (cpre ++ cellsOf fields os l)) ∧ ∀ l', offerAttr n v l = some l' → FlatsFor fields l' := by
  induction fields with
  | nil =>
    intro pre cpre os l v hlen hl
    cases (show l = [] from hl)
    refine ⟨rfl, ?_⟩
    rintro l' ⟨⟩
    rfl
  | cons f fields ih =>
    intro pre cpre os l v hlen hl
    by_cases hflat : ∃ raw, f.kind = .flatten raw
    · obtain ⟨raw, hk⟩ := hflat
      obtain ⟨nm, kd, df⟩ := f
      cases (show kd = .flatten raw from hk)
      obtain ⟨t, l, rfl, hl⟩ := hl
      have h1 : (pre ++ ⟨nm, .flatten raw, df⟩ :: fields)[pre.length]? = some ⟨nm, .flatten raw, df⟩ := by simp
      have h2 : ∀ t : τ, (cpre ++ cellsOf (⟨nm, .flatten raw, df⟩ :: fields) os ((raw, t) :: l))[pre.length]? = some (.flat t) := by
        intro t
        rw [hlen]
        simp [cellsOf]
      simp only [flatPos, delegateAttribute, h1, h2, offerAttr]
      rcases raw.attr t n v with e | ⟨t', r⟩
      · exact ⟨rfl, nofun⟩
      · rcases r with o | e | _
        · cases o with
          | some v =>
            have hset : (cpre ++ cellsOf (⟨nm, .flatten raw, df⟩ :: fields) os ((raw, t) :: l)).set pre.length (.flat t') =
                (cpre ++ [.flat t']) ++ cellsOf fields os.tail l := by
              rw [hlen]
              simp [cellsOf]
            have := ih (pre ++ [⟨nm, .flatten raw, df⟩]) (cpre ++ [.flat t']) os.tail l v (by simp [hlen]) hl
            simp only [List.length_append, List.length_cons, List.length_nil, Nat.zero_add, List.append_assoc, List.cons_append, List.nil_append] at this
            simp only [hset, List.append_assoc, List.cons_append, List.nil_append]
            refine ⟨?_, ?_⟩
            · rw [this.1]
              cases offerAttr n v l <;> simp [cellsOf]
            · intro l' h
              obtain ⟨l'', h1, rfl⟩ := Option.map_eq_some_iff.mp h
              exact ⟨_, _, rfl, this.2 _ h1⟩
          | none =>
            have hset : (cpre ++ cellsOf (⟨nm, .flatten raw, df⟩ :: fields) os ((raw, t) :: l)).set pre.length (.flat t') =
                cpre ++ cellsOf (⟨nm, .flatten raw, df⟩ :: fields) os ((raw, t') :: l) := by
              rw [hlen]
              simp [cellsOf]
            refine ⟨?_, ?_⟩
            · simp [heardText, okContent, hset]
            · rintro l' ⟨⟩
              exact ⟨_, _, rfl, hl⟩
        · exact ⟨rfl, nofun⟩
        · exact ⟨rfl, nofun⟩
    · have hc : ∀ l, cellsOf (f :: fields) os l = .plain (os.head?.join).isSome os.head?.join :: cellsOf fields os.tail l := by
        intro l
        simp only [cellsOf]
        cases hk : f.kind with
        | flatten raw => exact absurd ⟨raw, hk⟩ hflat
        | element i => rfl
        | «attribute» i => rfl
      have hl' : ∀ l, FlatsFor (f :: fields) l ↔ FlatsFor fields l := by
        intro l
        rw [FlatsFor]
        cases hk : f.kind with
        | flatten raw => exact absurd ⟨raw, hk⟩ hflat
        | element i => rfl
        | «attribute» i => rfl
      rw [flatPos_plain hflat]
      have := ih (pre ++ [f]) (cpre ++ [.plain (os.head?.join).isSome os.head?.join]) os.tail l v (by simp [hlen]) ((hl' l).mp hl)
      simp only [List.length_append, List.length_cons, List.length_nil, Nat.zero_add, List.append_assoc, List.cons_append, List.nil_append] at this
      simp only [hc]
      exact ⟨this.1, fun l' h => (hl' l').mpr (this.2 l' h)⟩

theorem delegateCharacters_flats (pos : Pos) (emb : List (OCell τ α) → σ) (fields : List (OField σ τ α)) :
    ∀ (pre : List (OField σ τ α)) (cpre : List (OCell τ α)) (os : List (Option α)) (l : List (Raw σ τ α × τ)) (v : String), pre.length = cpre.length →
      FlatsFor fields l →
      okContent (heardText emb (delegateCharacters (pre ++ fields) pos (flatPos fields pre.length) (cpre ++ cellsOf fields os l) v)) =
        (offerChars pos v l).map (fun l => emb (cpre ++ cellsOf fields os l)) ∧ ∀ l', offerChars pos v l = some l' → FlatsFor fields l' := by
  induction fields with
  | nil =>
    intro pre cpre os l v hlen hl
    cases (show l = [] from hl)
    refine ⟨rfl, ?_⟩
    rintro l' ⟨⟩
    rfl
  | cons f fields ih =>
    intro pre cpre os l v hlen hl
    by_cases hflat : ∃ raw, f.kind = .flatten raw
    · obtain ⟨raw, hk⟩ := hflat
      obtain ⟨nm, kd, df⟩ := f
      cases (show kd = .flatten raw from hk)
      obtain ⟨t, l, rfl, hl⟩ := hl
      have h1 : (pre ++ ⟨nm, .flatten raw, df⟩ :: fields)[pre.length]? = some ⟨nm, .flatten raw, df⟩ := by simp
      have h2 : ∀ t : τ, (cpre ++ cellsOf (⟨nm, .flatten raw, df⟩ :: fields) os ((raw, t) :: l))[pre.length]? = some (.flat t) := by
        intro t
        rw [hlen]
        simp [cellsOf]
      simp only [flatPos, delegateCharacters, h1, h2, offerChars]
      rcases raw.characters t v pos with e | ⟨t', r⟩
      · exact ⟨rfl, nofun⟩
      · rcases r with o | e | _
        · cases o with
          | some v =>
            have hset : (cpre ++ cellsOf (⟨nm, .flatten raw, df⟩ :: fields) os ((raw, t) :: l)).set pre.length (.flat t') =
                (cpre ++ [.flat t']) ++ cellsOf fields os.tail l := by
              rw [hlen]
              simp [cellsOf]
            have := ih (pre ++ [⟨nm, .flatten raw, df⟩]) (cpre ++ [.flat t']) os.tail l v (by simp [hlen]) hl
            simp only [List.length_append, List.length_cons, List.length_nil, Nat.zero_add, List.append_assoc, List.cons_append, List.nil_append] at this
            simp only [hset, List.append_assoc, List.cons_append, List.nil_append]
            refine ⟨?_, ?_⟩
            · rw [this.1]
              cases offerChars pos v l <;> simp [cellsOf]
            · intro l' h
              obtain ⟨l'', h1, rfl⟩ := Option.map_eq_some_iff.mp h
              exact ⟨_, _, rfl, this.2 _ h1⟩
          | none =>
            have hset : (cpre ++ cellsOf (⟨nm, .flatten raw, df⟩ :: fields) os ((raw, t) :: l)).set pre.length (.flat t') =
                cpre ++ cellsOf (⟨nm, .flatten raw, df⟩ :: fields) os ((raw, t') :: l) := by
              rw [hlen]
              simp [cellsOf]
            refine ⟨?_, ?_⟩
            · simp [heardText, okContent, hset]
            · rintro l' ⟨⟩
              exact ⟨_, _, rfl, hl⟩
        · exact ⟨rfl, nofun⟩
        · exact ⟨rfl, nofun⟩
    · have hc : ∀ l, cellsOf (f :: fields) os l = .plain (os.head?.join).isSome os.head?.join :: cellsOf fields os.tail l := by
        intro l
        simp only [cellsOf]
        cases hk : f.kind with
        | flatten raw => exact absurd ⟨raw, hk⟩ hflat
        | element i => rfl
        | «attribute» i => rfl
      have hl' : ∀ l, FlatsFor (f :: fields) l ↔ FlatsFor fields l := by
        intro l
        rw [FlatsFor]
        cases hk : f.kind with
        | flatten raw => exact absurd ⟨raw, hk⟩ hflat
        | element i => rfl
        | «attribute» i => rfl
      rw [flatPos_plain hflat]
      have := ih (pre ++ [f]) (cpre ++ [.plain (os.head?.join).isSome os.head?.join]) os.tail l v (by simp [hlen]) ((hl' l).mp hl)
      simp only [List.length_append, List.length_cons, List.length_nil, Nat.zero_add, List.append_assoc, List.cons_append, List.nil_append] at this
      simp only [hc]
      exact ⟨this.1, fun l' h => (hl' l').mpr (this.2 l' h)⟩

/-! ### Cells by position -/

theorem cellsOf_get {fields : List (OField σ τ α)} {p : Nat} {f : OField σ τ α} (hf : fields[p]? = some f) (hk : ∀ raw, f.kind ≠ .flatten raw)
    (os : List (Option α)) (l : List (Raw σ τ α × τ)) (hl : FlatsFor fields l) :
    (cellsOf fields os l)[p]? = some (.plain ((os[p]?).join).isSome (os[p]?).join) := by
  induction fields generalizing p os l with
  | nil => simp at hf
  | cons g fields ih =>
    cases p with
    | zero =>
      simp only [List.getElem?_cons_zero, Option.some.injEq] at hf
      subst hf
      simp only [cellsOf]
      cases hg : g.kind with
      | flatten raw => exact absurd hg (hk raw)
      | element i => simp [List.head?_eq_getElem?]
      | «attribute» i => simp [List.head?_eq_getElem?]
    | succ p =>
      simp only [List.getElem?_cons_succ] at hf
      simp only [cellsOf]
      unfold FlatsFor at hl
      cases hg : g.kind with
      | flatten raw =>
        rw [hg] at hl
        obtain ⟨t, l', rfl, hl⟩ := hl
        simp only [List.getElem?_cons_succ]
        rw [ih hf os.tail l' hl]
        simp
      | element i =>
        rw [hg] at hl
        simp only [List.getElem?_cons_succ]
        rw [ih hf os.tail l hl]
        simp
      | «attribute» i =>
        rw [hg] at hl
        simp only [List.getElem?_cons_succ]
        rw [ih hf os.tail l hl]
        simp

theorem cellsOf_set {fields : List (OField σ τ α)} {p : Nat} {f : OField σ τ α} (hf : fields[p]? = some f) (hk : ∀ raw, f.kind ≠ .flatten raw)
    (os : List (Option α)) (ho : os.length = fields.length) (l : List (Raw σ τ α × τ)) (hl : FlatsFor fields l) (c : Option α) :
    (cellsOf fields os l).set p (.plain c.isSome c) = cellsOf fields (os.set p c) l := by
  induction fields generalizing p os l with
  | nil => simp at hf
  | cons g fields ih =>
    cases os with
    | nil => simp at ho
    | cons o os =>
    cases p with
    | zero =>
      simp only [List.getElem?_cons_zero, Option.some.injEq] at hf
      subst hf
      simp only [cellsOf]
      cases hg : g.kind with
      | flatten raw => exact absurd hg (hk raw)
      | element i => simp
      | «attribute» i => simp
    | succ p =>
      simp only [List.getElem?_cons_succ] at hf
      simp only [List.length_cons, Nat.succ.injEq] at ho
      simp only [cellsOf]
      unfold FlatsFor at hl
      cases hg : g.kind with
      | flatten raw =>
        rw [hg] at hl
        obtain ⟨t, l', rfl, hl⟩ := hl
        simp only [List.set_cons_succ, List.tail_cons]
        rw [ih hf os ho l' hl]
      | element i =>
        rw [hg] at hl
        simp only [List.set_cons_succ, List.tail_cons, List.head?_cons]
        rw [ih hf os ho l hl]
      | «attribute» i =>
        rw [hg] at hl
        simp only [List.set_cons_succ, List.tail_cons, List.head?_cons]
        rw [ih hf os ho l hl]

/-! ### Children and attributes that are declared -/

theorem elem_declared (V : Visitor σ) (here : List StackElem) (x : Elem) (emb : List (OCell τ α) → σ) {fields : List (OField σ τ α)} (hD : Distinct fields)
    {p : Nat} {f : OField σ τ α} {impl : FieldImpl σ α} (hf : fields[p]? = some f) (hk : f.kind = .element impl)
    (hn : f.name.expanded = x.name.expanded) (os : List (Option α)) (ho : os.length = fields.length) (l : List (Raw σ τ α × τ)) (hl : FlatsFor fields l) :
    okState (perform V here x (heardElem emb (structElement fields (cellsOf fields os l) (infoOf here x)))) =
      (fill V here impl (os[p]?).join [x]).map fun c => emb (cellsOf fields (os.set p c) l) := by
  have hlook : lookup x.name.expanded (structTable (elemNames fields 0)) = .ok (some p) := by
    rcases lookup_elem fields x.name.expanded with ⟨q, g, i, h1, h2, h3, h4⟩ | ⟨_, h2⟩
    · rw [h1, hD p q f g hf h2 (hn.trans h4.symm) (.inl ⟨_, _, hk, h3⟩)]
    · exact absurd hn (h2 f (List.mem_of_getElem? hf) impl hk)
  have hnf : ∀ raw, f.kind ≠ .flatten raw := fun raw h => by rw [hk] at h; cases h
  have hcell := cellsOf_get hf hnf os l hl
  obtain ⟨nm, kd, df⟩ := f
  cases (show kd = .element impl from hk)
  unfold structElement
  simp only [show (infoOf here x).name = x.name from rfl, hlook, hf, hcell]
  cases hc : (os[p]?).join with
  | none =>
    simp only [Option.isSome_none, Bool.false_eq_true, if_false, heardElem, perform_map, fill, makes]
    rcases perform V here x (impl.init (infoOf here x)) with e | ⟨r, stop⟩
    · rfl
    · rcases r with v | e | _
      · simp only [Except.map, write, heardRead, okState, Option.map_some]
        rw [← cellsOf_set hf hnf os ho l hl (some v)]
        rfl
      · rfl
      · rfl
  | some v =>
    simp only [Option.isSome_some, if_true, heardElem, perform_map, fill, changes]
    rcases perform V here x (impl.update v (infoOf here x)) with e | ⟨⟨w, r⟩, stop⟩
    · rfl
    · rcases r with u | e | _
      · simp only [Except.map, heardRead, okState, Option.map_some]
        rw [← cellsOf_set hf hnf os ho l hl (some w)]
        rfl
      · rfl
      · rfl

theorem elem_undeclared (V : Visitor σ) (here : List StackElem) (x : Elem) (emb : List (OCell τ α) → σ) {fields : List (OField σ τ α)}
    (hn : ¬ IsElement fields x.name.expanded) (os : List (Option α)) (l : List (Raw σ τ α × τ)) (hl : FlatsFor fields l) :
    okState (perform V here x (heardElem emb (structElement fields (cellsOf fields os l) (infoOf here x)))) =
      (offerElem V here x l).map (fun l => emb (cellsOf fields os l)) ∧ ∀ l', offerElem V here x l = some l' → FlatsFor fields l' := by
  have hlook : lookup x.name.expanded (structTable (elemNames fields 0)) = .ok none := by
    rcases lookup_elem fields x.name.expanded with ⟨q, g, i, h1, h2, h3, h4⟩ | ⟨h1, _⟩
    · exact absurd ⟨g, List.mem_of_getElem? h2, ⟨i, h3⟩, h4⟩ hn
    · exact h1
  unfold structElement
  simp only [show (infoOf here x).name = x.name from rfl, hlook]
  exact delegateElement_flats V here x emb fields [] [] os l rfl hl

/-- An attribute field after attributes. -/
def fillA (impl : AttrImpl α) : Option α → List XAttr → Option (Option α)
  | c, [] => some c
  | none, a :: as =>
    match impl.init a.value with
    | .ok v => fillA impl (some v) as
    | _ => none
  | some _, _ :: _ => none

theorem fillA_none (impl : AttrImpl α) (l : List XAttr) : fillA impl none l = fillAttr impl l := by
  match l with
  | [] => rfl
  | [a] =>
    simp only [fillA, fillAttr]
    cases impl.init a.value <;> rfl
  | a :: b :: l =>
    simp only [fillA, fillAttr]
    cases impl.init a.value <;> rfl

theorem attr_declared (emb : List (OCell τ α) → σ) {fields : List (OField σ τ α)} (hD : Distinct fields) (a : XAttr)
    {p : Nat} {f : OField σ τ α} {impl : AttrImpl α} (hf : fields[p]? = some f) (hk : f.kind = .attribute impl)
    (hn : f.name.expanded = a.name.expanded) (os : List (Option α)) (ho : os.length = fields.length) (l : List (Raw σ τ α × τ)) (hl : FlatsFor fields l) :
    okContent (heardText emb (structAttribute fields (cellsOf fields os l) a.name.expanded a.value)) =
      (fillA impl (os[p]?).join [a]).map fun c => emb (cellsOf fields (os.set p c) l) := by
  have hlook : lookup a.name.expanded (structTable (attrNames fields 0)) = .ok (some p) := by
    rcases lookup_attr fields a.name.expanded with ⟨q, g, i, h1, h2, h3, h4⟩ | ⟨_, h2⟩
    · rw [h1, hD p q f g hf h2 (hn.trans h4.symm) (.inr ⟨_, _, hk, h3⟩)]
    · exact absurd hn (h2 f (List.mem_of_getElem? hf) impl hk)
  have hnf : ∀ raw, f.kind ≠ .flatten raw := fun raw h => by rw [hk] at h; cases h
  have hcell := cellsOf_get hf hnf os l hl
  obtain ⟨nm, kd, df⟩ := f
  cases (show kd = .attribute impl from hk)
  unfold structAttribute
  simp only [hlook, hf, hcell]
  cases hc : (os[p]?).join with
  | none =>
    simp only [Option.isSome_none, Bool.false_eq_true, if_false, fillA]
    rcases impl.init a.value with v | e | _
    · simp only [Except.map, write, heardText, okContent, Option.map_some]
      rw [← cellsOf_set hf hnf os ho l hl (some v)]
      rfl
    · rfl
    · rfl
  | some v => rfl

theorem attr_undeclared (emb : List (OCell τ α) → σ) {fields : List (OField σ τ α)} (a : XAttr)
    (hn : ¬ IsAttribute fields a.name.expanded) (os : List (Option α)) (l : List (Raw σ τ α × τ)) (hl : FlatsFor fields l) :
    okContent (heardText emb (structAttribute fields (cellsOf fields os l) a.name.expanded a.value)) =
      (offerAttr a.name.expanded a.value l).map (fun l => emb (cellsOf fields os l)) ∧
        ∀ l', offerAttr a.name.expanded a.value l = some l' → FlatsFor fields l' := by
  have hlook : lookup a.name.expanded (structTable (attrNames fields 0)) = .ok none := by
    rcases lookup_attr fields a.name.expanded with ⟨q, g, i, h1, h2, h3, h4⟩ | ⟨h1, _⟩
    · exact absurd ⟨g, List.mem_of_getElem? h2, ⟨i, h3⟩, h4⟩ hn
    · exact h1
  unfold structAttribute
  simp only [hlook]
  exact delegateAttribute_flats a.name.expanded emb fields [] [] os l a.value rfl hl

/-! ### All fields -/

/-- What one field has after children. -/
def fieldFill (V : Visitor σ) (here : List StackElem) (xs : List Elem) (f : OField σ τ α) (c : Option α) : Option (Option α) :=
  match f.kind with
  | .element impl => fill V here impl c (xs.filter fun x => x.name.expanded == f.name.expanded)
  | _ => some c

/-- What one field has after attributes. -/
def fieldFillA (as : List XAttr) (f : OField σ τ α) (c : Option α) : Option (Option α) :=
  match f.kind with
  | .attribute impl => fillA impl c (as.filter fun a => a.name.expanded == f.name.expanded)
  | _ => some c

/-- What each field has. -/
def each (g : OField σ τ α → Option α → Option (Option α)) : List (OField σ τ α) → List (Option α) → Option (List (Option α))
  | f :: fs, o :: os =>
    match g f o, each g fs os with
    | some c, some cs => some (c :: cs)
    | _, _ => none
  | _, _ => some []

theorem each_length {g : OField σ τ α → Option α → Option (Option α)} {fields : List (OField σ τ α)} {os os' : List (Option α)}
    (ho : os.length = fields.length) (h : each g fields os = some os') : os'.length = fields.length := by
  induction fields generalizing os os' with
  | nil => simp only [each, Option.some.injEq] at h; subst h; rfl
  | cons f fields ih =>
    cases os with
    | nil => simp at ho
    | cons o os =>
      unfold each at h
      split at h
      · rename_i c cs h1 h2
        cases h
        simp [ih (by simpa using ho) h2]
      · cases h

theorem each_id {g : OField σ τ α → Option α → Option (Option α)} {fields : List (OField σ τ α)} {os : List (Option α)}
    (ho : os.length = fields.length) (h : ∀ f ∈ fields, ∀ c, g f c = some c) : each g fields os = some os := by
  induction fields generalizing os with
  | nil => cases os with
    | nil => rfl
    | cons o os => simp at ho
  | cons f fields ih =>
    cases os with
    | nil => simp at ho
    | cons o os =>
      unfold each
      rw [h f (by simp), ih (by simpa using ho) fun g hg => h g (by simp [hg])]

theorem each_congr {g g' : OField σ τ α → Option α → Option (Option α)} {fields : List (OField σ τ α)} {os : List (Option α)}
    (h : ∀ f ∈ fields, ∀ c, g f c = g' f c) : each g fields os = each g' fields os := by
  induction fields generalizing os with
  | nil => cases os <;> rfl
  | cons f fields ih =>
    cases os with
    | nil => rfl
    | cons o os =>
      unfold each
      rw [h f (by simp), ih fun g hg => h g (by simp [hg])]

/-- One field takes a step first. -/
theorem each_step {g g' : OField σ τ α → Option α → Option (Option α)} {fields : List (OField σ τ α)} {os : List (Option α)}
    (ho : os.length = fields.length) {p : Nat} {f : OField σ τ α} (hf : fields[p]? = some f) (st : Option (Option α))
    (hp : g f (os[p]?).join = st.bind fun c => g' f c) (h : ∀ (q : Nat) f', q ≠ p → fields[q]? = some f' → ∀ c, g f' c = g' f' c) :
    each g fields os = st.bind fun c => each g' fields (os.set p c) := by
  induction fields generalizing os p with
  | nil => simp at hf
  | cons f0 fields ih =>
    cases os with
    | nil => simp at ho
    | cons o os =>
      cases p with
      | zero =>
        simp only [List.getElem?_cons_zero, Option.some.injEq] at hf
        subst hf
        simp only [List.getElem?_cons_zero, Option.join_some] at hp
        have hrest : each g fields os = each g' fields os := each_congr fun f' hf' => by
          obtain ⟨q, hq⟩ := List.getElem?_of_mem hf'
          exact h (q + 1) f' (by simp) (by simpa using hq)
        unfold each
        rw [hp, hrest]
        cases st with
        | none => rfl
        | some c => rfl
      | succ p =>
        simp only [List.getElem?_cons_succ] at hf
        simp only [List.getElem?_cons_succ] at hp
        have h0 := h 0 f0 (by simp) (by simp)
        have := ih (by simpa using ho) hf hp fun q f' hq hf' => h (q + 1) f' (by simpa using hq) (by simpa using hf')
        unfold each
        rw [h0, this]
        cases st with
        | none => cases g' f0 o <;> rfl
        | some c => simp only [Option.bind_some, List.set_cons_succ]

theorem fill_cons (V : Visitor σ) (here : List StackElem) (impl : FieldImpl σ α) (c : Option α) (x : Elem) (l : List Elem) :
    fill V here impl c (x :: l) = (fill V here impl c [x]).bind fun c => fill V here impl c l := by
  cases c with
  | none => simp only [fill]; cases makes V here x (impl.init (infoOf here x)) <;> rfl
  | some v => simp only [fill]; cases changes V here x (impl.update v (infoOf here x)) <;> rfl

theorem fillA_cons (impl : AttrImpl α) (c : Option α) (a : XAttr) (l : List XAttr) :
    fillA impl c (a :: l) = (fillA impl c [a]).bind fun c => fillA impl c l := by
  cases c with
  | none => simp only [fillA]; cases impl.init a.value <;> rfl
  | some v => rfl

theorem fills_declared (V : Visitor σ) (here : List StackElem) {fields : List (OField σ τ α)} (hD : Distinct fields) (x : Elem) (xs : List Elem)
    {p : Nat} {f : OField σ τ α} {impl : FieldImpl σ α} (hf : fields[p]? = some f) (hk : f.kind = .element impl)
    (hn : f.name.expanded = x.name.expanded) (os : List (Option α)) (ho : os.length = fields.length) :
    each (fieldFill V here (x :: xs)) fields os =
      (fill V here impl (os[p]?).join [x]).bind fun c => each (fieldFill V here xs) fields (os.set p c) := by
  refine each_step ho hf _ ?_ ?_
  · simp only [fieldFill, hk, List.filter_cons, hn, beq_self_eq_true, if_true]
    exact fill_cons V here impl _ x _
  · intro q g hq hg c
    unfold fieldFill
    cases hgk : g.kind with
    | element i =>
      have : (x.name.expanded == g.name.expanded) = false := by
        rw [beq_eq_false_iff_ne]
        exact fun he => hq (hD q p g f hg hf (he.symm.trans hn.symm) (.inl ⟨_, _, hgk, hk⟩))
      simp [List.filter_cons, this]
    | «attribute» i => rfl
    | flatten r => rfl

theorem fills_undeclared (V : Visitor σ) (here : List StackElem) {fields : List (OField σ τ α)} (x : Elem) (xs : List Elem)
    (hn : ¬ IsElement fields x.name.expanded) (os : List (Option α)) :
    each (fieldFill V here (x :: xs)) fields os = each (fieldFill V here xs) fields os := by
  refine each_congr fun f hf c => ?_
  unfold fieldFill
  cases hk : f.kind with
  | element i =>
    have : (x.name.expanded == f.name.expanded) = false := by
      rw [beq_eq_false_iff_ne]
      exact fun he => hn ⟨f, hf, ⟨i, hk⟩, he.symm⟩
    simp [List.filter_cons, this]
  | «attribute» i => rfl
  | flatten r => rfl

theorem fillsA_declared {fields : List (OField σ τ α)} (hD : Distinct fields) (a : XAttr) (as : List XAttr)
    {p : Nat} {f : OField σ τ α} {impl : AttrImpl α} (hf : fields[p]? = some f) (hk : f.kind = .attribute impl)
    (hn : f.name.expanded = a.name.expanded) (os : List (Option α)) (ho : os.length = fields.length) :
    each (fieldFillA (a :: as)) fields os =
      (fillA impl (os[p]?).join [a]).bind fun c => each (fieldFillA as) fields (os.set p c) := by
  refine each_step ho hf _ ?_ ?_
  · simp only [fieldFillA, hk, List.filter_cons, hn, beq_self_eq_true, if_true]
    exact fillA_cons impl _ a _
  · intro q g hq hg c
    unfold fieldFillA
    cases hgk : g.kind with
    | «attribute» i =>
      have : (a.name.expanded == g.name.expanded) = false := by
        rw [beq_eq_false_iff_ne]
        exact fun he => hq (hD q p g f hg hf (he.symm.trans hn.symm) (.inr ⟨_, _, hgk, hk⟩))
      simp [List.filter_cons, this]
    | element i => rfl
    | flatten r => rfl

theorem fillsA_undeclared {fields : List (OField σ τ α)} (a : XAttr) (as : List XAttr)
    (hn : ¬ IsAttribute fields a.name.expanded) (os : List (Option α)) :
    each (fieldFillA (a :: as)) fields os = each (fieldFillA as) fields os := by
  refine each_congr fun f hf c => ?_
  unfold fieldFillA
  cases hk : f.kind with
  | «attribute» i =>
    have : (a.name.expanded == f.name.expanded) = false := by
      rw [beq_eq_false_iff_ne]
      exact fun he => hn ⟨f, hf, ⟨i, hk⟩, he.symm⟩
    simp [List.filter_cons, this]
  | element i => rfl
  | flatten r => rfl

/-- The state when both the flattened fields and the others went well. -/
def both (emb : List (OCell τ α) → σ) (fields : List (OField σ τ α)) : Option (List (Raw σ τ α × τ)) → Option (List (Option α)) → Option σ
  | some l, some os => some (emb (cellsOf fields os l))
  | _, _ => none

theorem both_none (emb : List (OCell τ α) → σ) (fields : List (OField σ τ α)) (a : Option (List (Raw σ τ α × τ))) :
    both emb fields a none = none := by cases a <;> rfl

theorem content_struct {V : Visitor σ} {fields : List (OField σ τ α)} {emb : List (OCell τ α) → σ} (hV : Includes V (structRaw fields) emb)
    (hD : Distinct fields) (here : List StackElem) (F : Forest) (os : List (Option α)) (ho : os.length = fields.length) (l : List (Raw σ τ α × τ))
    (hl : FlatsFor fields l) :
    okContent (content V here F (emb (cellsOf fields os l))) =
      both emb fields (flatContent V here fields F l) (each (fieldFill V here F.children) fields os) ∧
    ∀ l', flatContent V here fields F l = some l' → FlatsFor fields l' := by
  induction F generalizing os l with
  | nil =>
    rw [content, flatContent, Forest.children, each_id ho]
    · refine ⟨rfl, ?_⟩
      rintro l' ⟨⟩
      exact hl
    · intro f hf c
      unfold fieldFill
      cases f.kind <;> cases c <;> rfl
  | misc m pos rest ih =>
    rw [content, flatContent, Forest.children]
    exact ih os ho l hl
  | chars s cd pos rest ih =>
    rw [content_chars, hV.chars, flatContent, Forest.children]
    have := delegateCharacters_flats pos emb fields [] [] os l s rfl hl
    have h1 : okContent (heardText emb ((structRaw fields).characters (cellsOf fields os l) s pos)) = _ := this.1
    rw [h1]
    cases ho' : offerChars pos s l with
    | none => exact ⟨rfl, nofun⟩
    | some l1 => exact ih os ho l1 (this.2 _ ho')
  | elem name attrs ns pos ch ep rest _ ih =>
    rw [content_elem, hV.elem, Forest.children]
    show (okState (perform V here ⟨name, attrs, ns, pos, ch, ep⟩ (heardElem emb (structElement fields (cellsOf fields os l) _)))).bind _ = _ ∧ _
    by_cases hd : IsElement fields name.expanded
    · have hfc : flatContent V here fields (.elem name attrs ns pos ch ep rest) l = flatContent V here fields rest l := by
        rw [flatContent, if_pos hd]
      rw [hfc]
      obtain ⟨f, hf, ⟨impl, hk⟩, hn⟩ := hd
      obtain ⟨p, hp⟩ := List.getElem?_of_mem hf
      rw [elem_declared V here ⟨name, attrs, ns, pos, ch, ep⟩ emb hD hp hk hn os ho l hl,
        fills_declared V here hD ⟨name, attrs, ns, pos, ch, ep⟩ rest.children hp hk hn os ho]
      cases fill V here impl (os[p]?).join [⟨name, attrs, ns, pos, ch, ep⟩] with
      | none =>
        refine ⟨?_, (ih os ho l hl).2⟩
        simp only [Option.map_none, Option.bind_none, both_none]
      | some c => exact ih (os.set p c) (by simpa using ho) l hl
    · have hfc : flatContent V here fields (.elem name attrs ns pos ch ep rest) l =
          (offerElem V here ⟨name, attrs, ns, pos, ch, ep⟩ l).bind fun l => flatContent V here fields rest l := by
        rw [flatContent, if_neg hd]
        cases offerElem V here ⟨name, attrs, ns, pos, ch, ep⟩ l <;> rfl
      rw [hfc]
      have hs := elem_undeclared V here ⟨name, attrs, ns, pos, ch, ep⟩ emb hd os l hl
      rw [hs.1, fills_undeclared V here ⟨name, attrs, ns, pos, ch, ep⟩ rest.children hd os]
      cases ho' : offerElem V here ⟨name, attrs, ns, pos, ch, ep⟩ l with
      | none => exact ⟨rfl, nofun⟩
      | some l1 => exact ih os ho l1 (hs.2 _ ho')

theorem attributes_struct {V : Visitor σ} {fields : List (OField σ τ α)} {emb : List (OCell τ α) → σ} (hV : Includes V (structRaw fields) emb)
    (hD : Distinct fields) (here : List StackElem) (pos : Pos) (as : List XAttr) (os : List (Option α)) (ho : os.length = fields.length)
    (l : List (Raw σ τ α × τ)) (hl : FlatsFor fields l) :
    okContent (attributes V here pos as (emb (cellsOf fields os l))) =
      both emb fields (flatAttrs fields as l) (each (fieldFillA as) fields os) ∧
    ∀ l', flatAttrs fields as l = some l' → FlatsFor fields l' := by
  induction as generalizing os l with
  | nil =>
    rw [attributes, flatAttrs, each_id ho]
    · refine ⟨rfl, ?_⟩
      rintro l' ⟨⟩
      exact hl
    · intro f hf c
      unfold fieldFillA
      cases f.kind <;> cases c <;> rfl
  | cons a as ih =>
    rw [attributes_cons, hV.attr]
    show (okContent (heardText emb (structAttribute fields (cellsOf fields os l) _ _))).bind _ = _ ∧ _
    by_cases hd : IsAttribute fields a.name.expanded
    · have hfc : flatAttrs fields (a :: as) l = flatAttrs fields as l := by rw [flatAttrs, if_pos hd]
      rw [hfc]
      obtain ⟨f, hf, ⟨impl, hk⟩, hn⟩ := hd
      obtain ⟨p, hp⟩ := List.getElem?_of_mem hf
      rw [attr_declared emb hD a hp hk hn os ho l hl, fillsA_declared hD a as hp hk hn os ho]
      cases fillA impl (os[p]?).join [a] with
      | none =>
        refine ⟨?_, (ih os ho l hl).2⟩
        simp only [Option.map_none, Option.bind_none, both_none]
      | some c => exact ih (os.set p c) (by simpa using ho) l hl
    · have hfc : flatAttrs fields (a :: as) l =
          (offerAttr a.name.expanded a.value l).bind fun l => flatAttrs fields as l := by
        rw [flatAttrs, if_neg hd]
        cases offerAttr a.name.expanded a.value l <;> rfl
      rw [hfc]
      have hs := attr_undeclared emb a hd os l hl
      rw [hs.1, fillsA_undeclared a as hd os]
      cases ho' : offerAttr a.name.expanded a.value l with
      | none => exact ⟨rfl, nofun⟩
      | some l1 => exact ih os ho l1 (hs.2 _ ho')

/-! ### The end -/

/-- What `finalize` makes of the memory. -/
def Ends : List (OField σ τ α) → List (Option α) → List (Raw σ τ α × τ) → List α → Prop
  | [], _, l, vs => l = [] ∧ vs = []
  | f :: fs, os, l, vs => ∃ v vs', vs = v :: vs' ∧
    match f.kind with
    | .flatten raw => ∃ t l' t', l = (raw, t) :: l' ∧ raw.finalize t f.default = .ok (t', .ok ()) ∧ raw.out t' = some v ∧ Ends fs os.tail l' vs'
    | _ => (os.head?.join = some v ∨ os.head?.join = none ∧ absent f = .ok v) ∧ Ends fs os.tail l vs'

/-- The end of one field. -/
theorem finish_plain {f : OField σ τ α} (hk : ∀ raw, f.kind ≠ .flatten raw) (c : Option α) (v : α) :
    (∃ c', finalizeCell f (.plain c.isSome c) = .ok (c', .ok ()) ∧ cellOut f c' = some v) ↔ (c = some v ∨ c = none ∧ absent f = .ok v) := by
  obtain ⟨c', r, h1, h2, h3, h4, h5⟩ := finalizeCell_plain hk c
  rw [h1]
  constructor
  · rintro ⟨c'', h, ho⟩
    simp only [Except.ok.injEq, Prod.mk.injEq] at h
    obtain ⟨rfl, rfl⟩ := h
    rw [cellOut_plain] at ho
    cases c with
    | some a =>
      rw [(h2 a rfl).1] at ho
      exact .inl ho
    | none =>
      refine .inr ⟨rfl, ?_⟩
      cases ha : absent f with
      | ok a =>
        rw [(h3 rfl a ha).1] at ho
        cases ho
        rfl
      | err e => exact nomatch h4 rfl e ha
      | panic => exact nomatch h5 rfl ha
  · rintro (rfl | ⟨rfl, ha⟩)
    · obtain ⟨rfl, rfl⟩ := h2 v rfl
      exact ⟨_, rfl, cellOut_plain _ _⟩
    · obtain ⟨rfl, rfl⟩ := h3 rfl v ha
      exact ⟨_, rfl, cellOut_plain _ _⟩

theorem finish_cons {f : OField σ τ α} {fs : List (OField σ τ α)} {c : OCell τ α} {cs : List (OCell τ α)} {vs : List α} :
    (∃ cs', finalizeCells (f :: fs) (c :: cs) = .ok (cs', .ok ()) ∧ structOut (f :: fs) cs' = some vs) ↔
    ∃ v vs', vs = v :: vs' ∧ (∃ c', finalizeCell f c = .ok (c', .ok ()) ∧ cellOut f c' = some v) ∧
      ∃ cs', finalizeCells fs cs = .ok (cs', .ok ()) ∧ structOut fs cs' = some vs' := by
  constructor
  · rintro ⟨cs', h, ho⟩
    unfold finalizeCells at h
    rcases hc : finalizeCell f c with e | ⟨c', r⟩
    · rw [hc] at h; cases h
    · rw [hc] at h
      rcases r with u | e | _
      · simp only at h
        rcases hr : finalizeCells fs cs with e | ⟨cs'', r⟩
        · rw [hr] at h; cases h
        · rw [hr] at h
          simp only [Except.map, Except.ok.injEq, Prod.mk.injEq] at h
          obtain ⟨rfl, rfl⟩ := h
          unfold structOut at ho
          split at ho
          · rename_i v vs' h1 h2
            cases ho
            exact ⟨v, vs', rfl, ⟨c', rfl, h1⟩, cs'', rfl, h2⟩
          · cases ho
      · simp at h
      · simp at h
  · rintro ⟨v, vs', rfl, ⟨c', h1, h2⟩, cs', h3, h4⟩
    refine ⟨c' :: cs', ?_, ?_⟩
    · simp only [finalizeCells, h1, h3, Except.map]
    · simp only [structOut, h2, h4]

theorem finish_cells (fields : List (OField σ τ α)) (os : List (Option α)) (l : List (Raw σ τ α × τ)) (hl : FlatsFor fields l) (vs : List α) :
    (∃ cs, finalizeCells fields (cellsOf fields os l) = .ok (cs, .ok ()) ∧ structOut fields cs = some vs) ↔ Ends fields os l vs := by
  induction fields generalizing os l vs with
  | nil =>
    cases (show l = [] from hl)
    constructor
    · rintro ⟨cs, h, ho⟩
      simp only [structOut, Option.some.injEq] at ho
      exact ⟨rfl, ho.symm⟩
    · rintro ⟨-, rfl⟩
      exact ⟨[], rfl, rfl⟩
  | cons f fields ih =>
    obtain ⟨nm, kd, df⟩ := f
    cases kd with
    | flatten raw =>
      obtain ⟨t, l', rfl, hl'⟩ := hl
      simp only [cellsOf, finish_cons, ih _ _ hl', Ends]
      constructor
      · rintro ⟨v, vs', rfl, ⟨c', h1, h2⟩, h3⟩
        unfold finalizeCell at h1
        simp only at h1
        rcases hr : raw.finalize t df with e | ⟨t', r⟩
        · rw [hr] at h1; cases h1
        · rw [hr] at h1
          simp only [Except.map, Except.ok.injEq, Prod.mk.injEq] at h1
          obtain ⟨rfl, rfl⟩ := h1
          exact ⟨v, vs', rfl, t, l', t', rfl, hr, h2, h3⟩
      · rintro ⟨v, vs', rfl, t1, l1, t', h, h1, h2, h3⟩
        simp only [List.cons.injEq, Prod.mk.injEq, true_and] at h
        obtain ⟨rfl, rfl⟩ := h
        refine ⟨v, vs', rfl, ⟨.flat t', ?_, h2⟩, h3⟩
        simp only [finalizeCell, h1, Except.map]
    | element impl =>
      simp only [cellsOf, finish_cons, ih _ _ (show FlatsFor fields l from hl), Ends]
      constructor
      · rintro ⟨v, vs', rfl, h1, h2⟩
        exact ⟨v, vs', rfl, (finish_plain (by intro raw h; cases h) _ _).mp h1, h2⟩
      · rintro ⟨v, vs', rfl, h1, h2⟩
        exact ⟨v, vs', rfl, (finish_plain (by intro raw h; cases h) _ _).mpr h1, h2⟩
    | «attribute» impl =>
      simp only [cellsOf, finish_cons, ih _ _ (show FlatsFor fields l from hl), Ends]
      constructor
      · rintro ⟨v, vs', rfl, h1, h2⟩
        exact ⟨v, vs', rfl, (finish_plain (by intro raw h; cases h) _ _).mp h1, h2⟩
      · rintro ⟨v, vs', rfl, h1, h2⟩
        exact ⟨v, vs', rfl, (finish_plain (by intro raw h; cases h) _ _).mpr h1, h2⟩

theorem finishRaw_ok {τ' β : Type} (raw : Raw σ τ' β) (t : τ') (v : β) :
    finishRaw raw t = .ok (.ok v) ↔ ∃ t', raw.finalize t none = .ok (t', .ok ()) ∧ raw.out t' = some v := by
  unfold finishRaw
  rcases raw.finalize t none with e | ⟨t', u | e | _⟩
  · simp
  · cases ho : raw.out t' with
    | none => simp [ho]
    | some w => simp [ho]
  · simp
  · simp

/-- Nothing has been read. -/
def nones (fields : List (OField σ τ α)) : List (Option α) := fields.map fun _ => none

theorem cellsOf_new (fields : List (OField σ τ α)) :
    fields.map newCell = cellsOf fields (nones fields) (newFlats fields) ∧ FlatsFor fields (newFlats fields) := by
  induction fields with
  | nil => exact ⟨rfl, rfl⟩
  | cons f fields ih =>
    obtain ⟨nm, kd, df⟩ := f
    cases kd with
    | flatten raw =>
      refine ⟨?_, _, _, rfl, ih.2⟩
      simp only [cellsOf, newFlats, List.map_cons, ih.1, nones, List.tail_cons]
      rfl
    | element impl =>
      refine ⟨?_, ih.2⟩
      simp only [cellsOf, newFlats, List.map_cons, ih.1, nones, List.tail_cons]
      rfl
    | «attribute» impl =>
      refine ⟨?_, ih.2⟩
      simp only [cellsOf, newFlats, List.map_cons, ih.1, nones, List.tail_cons]
      rfl

theorem each_cons {g : OField σ τ α → Option α → Option (Option α)} {f : OField σ τ α} {fs : List (OField σ τ α)} {o : Option α}
    {os r : List (Option α)} : each g (f :: fs) (o :: os) = some r ↔ ∃ c cs, r = c :: cs ∧ g f o = some c ∧ each g fs os = some cs := by
  rw [each]
  cases g f o with
  | none => simp
  | some c =>
    cases each g fs os with
    | none => simp
    | some cs =>
      simp only [Option.some.injEq]
      constructor
      · rintro rfl; exact ⟨c, cs, rfl, rfl, rfl⟩
      · rintro ⟨c, cs, rfl, rfl, rfl⟩; rfl

theorem gets_iff (V : Visitor σ) (here : List StackElem) (x : Elem) (f : OField σ τ α) (v : α) :
    Gets V here x f v ↔ (∀ raw, f.kind ≠ .flatten raw) ∧ ∃ c1 c2, fieldFillA x.attrs f none = some c1 ∧
      fieldFill V here x.children.children f c1 = some c2 ∧ (c2 = some v ∨ c2 = none ∧ absent f = .ok v) := by
  unfold Gets fieldFillA fieldFill
  cases hk : f.kind with
  | flatten raw =>
    constructor
    · rintro ⟨c, h, -⟩; exact h.elim
    · rintro ⟨h, -⟩; exact absurd rfl (h raw)
  | element impl =>
    constructor
    · rintro ⟨c, h, h'⟩
      exact ⟨nofun, none, c, rfl, h, h'⟩
    · rintro ⟨-, c1, c2, h1, h, h'⟩
      cases h1
      exact ⟨c2, h, h'⟩
  | «attribute» impl =>
    simp only [fillA_none]
    constructor
    · rintro ⟨c, h, h'⟩
      exact ⟨nofun, c, c, h, rfl, h'⟩
    · rintro ⟨-, c1, c2, h1, h, h'⟩
      cases h
      exact ⟨c1, h1, h'⟩

theorem allGet_iff (V : Visitor σ) (here : List StackElem) (x : Elem) (fields : List (OField σ τ α)) (l : List (Raw σ τ α × τ)) (vs : List α) :
    AllGet V here x fields l vs ↔ ∃ os1 os2, each (fieldFillA x.attrs) fields (nones fields) = some os1 ∧
      each (fieldFill V here x.children.children) fields os1 = some os2 ∧ Ends fields os2 l vs := by
  constructor
  · intro h
    induction h with
    | nil => exact ⟨[], [], rfl, rfl, rfl, rfl⟩
    | @plain f fs flats v vs hv h ih =>
      obtain ⟨os1, os2, h1, h2, h3⟩ := ih
      obtain ⟨hk, c1, c2, g1, g2, g3⟩ := (gets_iff V here x f v).mp hv
      refine ⟨c1 :: os1, c2 :: os2, each_cons.mpr ⟨_, _, rfl, g1, h1⟩, each_cons.mpr ⟨_, _, rfl, g2, h2⟩, ?_⟩
      refine ⟨v, vs, rfl, ?_⟩
      cases hk' : f.kind with
      | flatten raw => exact absurd hk' (hk raw)
      | element impl => exact ⟨g3, h3⟩
      | «attribute» impl => exact ⟨g3, h3⟩
    | @flat f fs raw t t' flats v vs hk hf hv h ih =>
      obtain ⟨os1, os2, h1, h2, h3⟩ := ih
      refine ⟨none :: os1, none :: os2, each_cons.mpr ⟨_, _, rfl, by simp [fieldFillA, hk], h1⟩,
        each_cons.mpr ⟨_, _, rfl, by simp [fieldFill, hk], h2⟩, ?_⟩
      refine ⟨v, vs, rfl, ?_⟩
      rw [hk]
      exact ⟨t, flats, t', rfl, hf, hv, h3⟩
  · rintro ⟨os1, os2, h1, h2, h3⟩
    induction fields generalizing os1 os2 l vs with
    | nil =>
      obtain ⟨rfl, rfl⟩ := h3
      exact .nil
    | cons f fields ih =>
      obtain ⟨c1, os1, rfl, g1, h1⟩ := each_cons.mp h1
      obtain ⟨c2, os2, rfl, g2, h2⟩ := each_cons.mp h2
      obtain ⟨v, vs, rfl, h3⟩ := h3
      cases hk : f.kind with
      | flatten raw =>
        rw [hk] at h3
        obtain ⟨t, l', t', rfl, hf, hv, h3⟩ := h3
        exact .flat hk hf hv (ih l' vs os1 os2 h1 h2 h3)
      | element impl =>
        rw [hk] at h3
        exact .plain ((gets_iff V here x f v).mpr ⟨by rw [hk]; exact nofun, c1, c2, g1, g2, h3.1⟩) (ih l vs os1 os2 h1 h2 h3.2)
      | «attribute» impl =>
        rw [hk] at h3
        exact .plain ((gets_iff V here x f v).mpr ⟨by rw [hk]; exact nofun, c1, c2, g1, g2, h3.1⟩) (ih l vs os1 os2 h1 h2 h3.2)

/-! ### A whole element -/

/-- An element is read to a visitor, and what is then done with it. -/
theorem deserVia_ok {τ' β : Type} (V : Visitor σ) (raw : Raw σ τ' β) (emb : τ' → σ) (proj : σ → Option τ') (path : List StackElem) (x : Elem) (v : β) :
    (∃ stop, deser V (deserVia raw emb proj) path x = .ok (.ok v, stop)) ↔
      ∃ s s' t, okContent (attributes V (path ++ [{ name := x.name, pos := x.pos }]) x.pos x.attrs (emb raw.new)) = some s ∧
        okContent (content V (path ++ [{ name := x.name, pos := x.pos }]) x.children s) = some s' ∧ proj s' = some t ∧ finishRaw raw t = .ok (.ok v) := by
  simp only [okContent_some, deser, deserVia]
  generalize path ++ [({ name := x.name, pos := x.pos } : StackElem)] = here
  rcases attributes V here x.pos x.attrs (emb raw.new) with f | ⟨s, e | u⟩
  · simp
  · simp
  · simp only
    rcases hc : content V here x.children s with f | ⟨s', ⟨e, stop⟩ | u⟩
    · simp [hc]
    · simp [hc]
    · simp only
      cases hp : proj s' with
      | none => simp [hc, hp]
      | some t =>
        simp only
        rcases hf : finishRaw raw t with f | r
        · simp [hc, hp, hf]
        · simp [hc, hp, hf]

theorem readDoc_ok {β : Type} (V : Visitor σ) (D : Deser σ β) (d : Doc) (v : β) :
    readDoc V D d = .ok (.ok v) ↔ ∃ stop, deser V D [] d.root = .ok (.ok v, stop) := by
  unfold readDoc
  rcases deser V D [] d.root with f | ⟨(e | e) | r, stop⟩ <;> simp

theorem deserVia_noSwallow {τ' β : Type} (raw : Raw σ τ' β) (emb : τ' → σ) (proj : σ → Option τ') : DeserNoSwallow (deserVia raw emb proj) := by
  intro info sub e a h
  simp [deserVia] at h

theorem struct_read {V : Visitor σ} {fields : List (OField σ τ α)} {emb : List (OCell τ α) → σ} (hV : Includes V (structRaw fields) emb)
    (hD : Distinct fields) {proj : σ → Option (List (OCell τ α))} (hp : ∀ t, proj (emb t) = some t) (path : List StackElem) (x : Elem) (vs : List α) :
    (∃ stop, deser V (deserVia (structRaw fields) emb proj) path x = .ok (.ok vs, stop)) ↔ StructRead V path fields x vs := by
  rw [deserVia_ok]
  unfold StructRead
  generalize path ++ [({ name := x.name, pos := x.pos } : StackElem)] = here
  have hnew : (structRaw fields).new = cellsOf fields (nones fields) (newFlats fields) := (cellsOf_new fields).1
  have hlen : (nones fields).length = fields.length := by simp [nones]
  have hA := attributes_struct hV hD here x.pos x.attrs (nones fields) hlen (newFlats fields) (cellsOf_new fields).2
  rw [hnew, hA.1]
  constructor
  · rintro ⟨s, s', t, h1, h2, h3, h4⟩
    cases hl : flatAttrs fields x.attrs (newFlats fields) with
    | none => rw [hl] at h1; cases h1
    | some l =>
      cases ho : each (fieldFillA x.attrs) fields (nones fields) with
      | none => rw [hl, ho] at h1; cases h1
      | some os =>
        rw [hl, ho] at h1
        simp only [both, Option.some.injEq] at h1
        subst h1
        have hC := content_struct hV hD here x.children os (each_length hlen ho) l (hA.2 l hl)
        rw [hC.1] at h2
        cases hl' : flatContent V here fields x.children l with
        | none => rw [hl'] at h2; cases h2
        | some l' =>
          cases ho' : each (fieldFill V here x.children.children) fields os with
          | none => rw [hl', ho'] at h2; cases h2
          | some os' =>
            rw [hl', ho'] at h2
            simp only [both, Option.some.injEq] at h2
            subst h2
            rw [hp] at h3
            cases h3
            rw [finishRaw_ok] at h4
            exact ⟨l, l', rfl, hl', (allGet_iff V here x fields l' vs).mpr
              ⟨os, os', ho, ho', (finish_cells fields os' l' (hC.2 l' hl') vs).mp h4⟩⟩
  · rintro ⟨l, l', hl, hl', h⟩
    obtain ⟨os, os', ho, ho', h⟩ := (allGet_iff V here x fields l' vs).mp h
    have hC := content_struct hV hD here x.children os (each_length hlen ho) l (hA.2 l hl)
    refine ⟨emb (cellsOf fields os l), emb (cellsOf fields os' l'), cellsOf fields os' l', ?_, ?_, hp _, ?_⟩
    · rw [hl, ho]; rfl
    · rw [hC.1, hl', ho']; rfl
    · rw [finishRaw_ok]
      exact (finish_cells fields os' l' (hC.2 l' hl') vs).mpr h

/-! ### Enums -/

/-- What an enum holds after children. -/
def enumFill (V : Visitor σ) (here : List StackElem) (vs : List (OVariant σ α)) : Option (Nat × Option α) → List Elem → Option (Option (Nat × Option α))
  | c, [] => some c
  | none, x :: xs =>
    match variantFor vs x.name.expanded with
    | none => enumFill V here vs none xs
    | some (i, v) =>
      match v.payload with
      | none => enumFill V here vs (some (i, none)) xs
      | some impl => (makes V here x (impl.init (infoOf here x))).bind fun p => enumFill V here vs (some (i, some p)) xs
  | some (i, p), x :: xs =>
    match variantFor vs x.name.expanded with
    | none => enumFill V here vs (some (i, p)) xs
    | some (j, v) =>
      if j = i then
        match v.payload, p with
        | some impl, some p => (changes V here x (impl.update p (infoOf here x))).bind fun p => enumFill V here vs (some (i, some p)) xs
        | _, _ => enumFill V here vs (some (i, p)) xs
      else none

/-- What is held is a variant with its payload. -/
def Fits (vs : List (OVariant σ α)) : Option (Nat × Option α) → Prop
  | none => True
  | some (i, p) => ∃ v, vs[i]? = some v ∧ p.isSome = v.payload.isSome

/-- The visitor that holds this. -/
def enumSt (c : Option (Nat × Option α)) : OEnum α := { initialized := c.isSome, cell := c }

theorem enum_step (V : Visitor σ) (here : List StackElem) {vs : List (OVariant σ α)} (hs : Searchable vs) (emb : OEnum α → σ) (x : Elem)
    (c : Option (Nat × Option α)) (hc : Fits vs c) :
    okState (perform V here x (heardElem emb (enumElement vs (enumSt c) (infoOf here x)))) =
      (enumFill V here vs c [x]).map (fun c => emb (enumSt c)) ∧ ∀ c', enumFill V here vs c [x] = some c' → Fits vs c' := by
  unfold enumElement
  rw [show (infoOf here x).name = x.name from rfl, lookup_variantFor hs]
  cases c with
  | none =>
    simp only [enumSt, Option.isSome_none, Bool.false_eq_true, if_false, enumFill]
    cases hv : variantFor vs x.name.expanded with
    | none =>
      refine ⟨rfl, ?_⟩
      rintro c' ⟨⟩
      trivial
    | some w =>
      obtain ⟨i, v⟩ := w
      have hi := (variantFor_some hv).1
      simp only [Option.map_some, hi]
      cases hpl : v.payload with
      | none =>
        refine ⟨rfl, ?_⟩
        rintro c' ⟨⟩
        exact ⟨v, hi, by rw [hpl]; rfl⟩
      | some impl =>
        simp only [heardElem, perform_map, makes]
        rcases perform V here x (impl.init (infoOf here x)) with e | ⟨r, stop⟩
        · exact ⟨rfl, nofun⟩
        · rcases r with p | e | _
          · refine ⟨rfl, ?_⟩
            rintro c' ⟨⟩
            exact ⟨v, hi, by rw [hpl]; rfl⟩
          · exact ⟨rfl, nofun⟩
          · exact ⟨rfl, nofun⟩
  | some h =>
    obtain ⟨i, p⟩ := h
    obtain ⟨v, hi, hp⟩ := hc
    simp only [enumSt, Option.isSome_some, if_true, enumFill, hi]
    cases hv : variantFor vs x.name.expanded with
    | none =>
      simp only [Option.map_none, reduceCtorEq, if_false]
      refine ⟨rfl, ?_⟩
      rintro c' ⟨⟩
      exact ⟨v, hi, hp⟩
    | some w =>
      obtain ⟨j, w⟩ := w
      simp only [Option.map_some, Option.some.injEq]
      by_cases hj : j = i
      · subst hj
        have hw := (variantFor_some hv).1
        rw [hi] at hw
        cases hw
        simp only [if_true]
        cases hpl : v.payload with
        | none =>
          rw [hpl] at hp
          cases p with
          | some p => cases hp
          | none =>
            refine ⟨rfl, ?_⟩
            rintro c' ⟨⟩
            exact ⟨v, hi, by rw [hpl]; rfl⟩
        | some impl =>
          rw [hpl] at hp
          cases p with
          | none => cases hp
          | some p =>
            simp only [heardElem, perform_map, changes]
            rcases perform V here x (impl.update p (infoOf here x)) with e | ⟨⟨q, r⟩, stop⟩
            · exact ⟨rfl, nofun⟩
            · rcases r with u | e | _
              · refine ⟨rfl, ?_⟩
                rintro c' ⟨⟩
                exact ⟨v, hi, by rw [hpl]; rfl⟩
              · exact ⟨rfl, nofun⟩
              · exact ⟨rfl, nofun⟩
      · simp only [hj, if_false]
        exact ⟨rfl, nofun⟩

theorem enumFill_cons (V : Visitor σ) (here : List StackElem) (vs : List (OVariant σ α)) (c : Option (Nat × Option α)) (x : Elem) (xs : List Elem) :
    enumFill V here vs c (x :: xs) = (enumFill V here vs c [x]).bind fun c => enumFill V here vs c xs := by
  cases c with
  | none =>
    simp only [enumFill]
    cases variantFor vs x.name.expanded with
    | none => rfl
    | some w =>
      obtain ⟨i, v⟩ := w
      simp only
      cases v.payload with
      | none => rfl
      | some impl =>
        simp only
        cases makes V here x (impl.init (infoOf here x)) <;> rfl
  | some h =>
    obtain ⟨i, p⟩ := h
    simp only [enumFill]
    cases variantFor vs x.name.expanded with
    | none => rfl
    | some w =>
      obtain ⟨j, v⟩ := w
      simp only
      by_cases hj : j = i
      · simp only [hj, if_true]
        cases v.payload with
        | none => rfl
        | some impl =>
          cases p with
          | none => rfl
          | some p =>
            simp only
            cases changes V here x (impl.update p (infoOf here x)) <;> rfl
      · simp [hj]

theorem content_enum {V : Visitor σ} {ident : String} {vs : List (OVariant σ α)} {emb : OEnum α → σ} (hV : Includes V (enumRaw ident vs) emb)
    (hs : Searchable vs) (here : List StackElem) (F : Forest) (c : Option (Nat × Option α)) (hc : Fits vs c) :
    okContent (content V here F (emb (enumSt c))) = (enumFill V here vs c F.children).map fun c => emb (enumSt c) := by
  induction F generalizing c with
  | nil =>
    rw [content, Forest.children]
    cases c <;> rfl
  | misc m pos rest ih => rw [content, Forest.children]; exact ih c hc
  | chars s cd pos rest ih =>
    rw [content_chars, hV.chars, Forest.children]
    exact ih c hc
  | elem name attrs ns pos ch ep rest _ ih =>
    rw [content_elem, hV.elem, Forest.children]
    have h := enum_step V here hs emb ⟨name, attrs, ns, pos, ch, ep⟩ c hc
    rw [enumFill_cons]
    show (okState (perform V here ⟨name, attrs, ns, pos, ch, ep⟩ (heardElem emb (enumElement vs (enumSt c) _)))).bind _ = _
    rw [h.1]
    cases hf : enumFill V here vs c [⟨name, attrs, ns, pos, ch, ep⟩] with
    | none => rfl
    | some c' => exact ih c' (h.2 c' hf)

theorem attributes_enum {V : Visitor σ} {ident : String} {vs : List (OVariant σ α)} {emb : OEnum α → σ} (hV : Includes V (enumRaw ident vs) emb)
    (here : List StackElem) (pos : Pos) (as : List XAttr) (st : OEnum α) :
    okContent (attributes V here pos as (emb st)) = some (emb st) := by
  induction as with
  | nil => rw [attributes]; rfl
  | cons a as ih =>
    rw [attributes_cons, hV.attr]
    exact ih

theorem enumFill_some (V : Visitor σ) (here : List StackElem) {vs : List (OVariant σ α)} (hs : Searchable vs) {i : Nat} {v : OVariant σ α}
    (hi : vs[i]? = some v) (xs : List Elem) (p : Option α) (hp : p.isSome = v.payload.isSome) (c : Option (Nat × Option α)) :
    enumFill V here vs (some (i, p)) xs = some c ↔
      (∀ x ∈ xs, ∀ w ∈ vs, w.name.expanded = x.name.expanded → w.name.expanded = v.name.expanded) ∧
      match v.payload with
      | none => c = some (i, none)
      | some impl => ∃ q, fill V here impl p (xs.filter fun x => x.name.expanded == v.name.expanded) = some (some q) ∧ c = some (i, some q) := by
  induction xs generalizing p with
  | nil =>
    cases hpl : v.payload with
    | none =>
      rw [hpl] at hp
      cases p with
      | some p => cases hp
      | none => simp [enumFill, eq_comm]
    | some impl =>
      rw [hpl] at hp
      cases p with
      | none => cases hp
      | some p => simp [enumFill, fill, eq_comm]
  | cons x xs ih =>
    rw [enumFill_cons]
    simp only [enumFill, List.forall_mem_cons]
    cases hv : variantFor vs x.name.expanded with
    | none =>
      have hn := variantFor_none hv
      have hne : (x.name.expanded == v.name.expanded) = false := by
        rw [beq_eq_false_iff_ne]
        exact fun he => hn v (List.mem_of_getElem? hi) he.symm
      have h1 : (∀ w ∈ vs, w.name.expanded = x.name.expanded → w.name.expanded = v.name.expanded) ↔ True :=
        ⟨fun _ => trivial, fun _ w hw he => absurd he (hn w hw)⟩
      simp only [Option.bind_some, h1, true_and, List.filter_cons, hne, Bool.false_eq_true, if_false]
      exact ih p hp
    | some w =>
      obtain ⟨j, w⟩ := w
      obtain ⟨hw, hwn⟩ := variantFor_some hv
      simp only
      by_cases hj : j = i
      · subst hj
        rw [hi] at hw
        cases hw
        have h1 : (∀ w ∈ vs, w.name.expanded = x.name.expanded → w.name.expanded = v.name.expanded) ↔ True :=
          ⟨fun _ => trivial, fun _ w hw he => he.trans hwn.symm⟩
        have hne : (x.name.expanded == v.name.expanded) = true := by simp [hwn]
        simp only [if_true, h1, true_and, List.filter_cons, hne]
        cases hpl : v.payload with
        | none =>
          have := ih p hp
          rw [hpl] at this
          exact this
        | some impl =>
          rw [hpl] at hp
          cases p with
          | none => cases hp
          | some p =>
            simp only [fill]
            cases changes V here x (impl.update p (infoOf here x)) with
            | none => simp
            | some q =>
              have := ih (some q) (by rw [hpl]; rfl)
              rw [hpl] at this
              exact this
      · simp only [hj, if_false, Option.bind_none]
        constructor
        · rintro ⟨⟩
        · rintro ⟨⟨h, -⟩, -⟩
          exact absurd (hs.distinct j i w v hw hi (h w (List.mem_of_getElem? hw) hwn)) hj

/-- An enum's variant is read from children. -/
theorem enumFill_none (V : Visitor σ) (here : List StackElem) {vs : List (OVariant σ α)} (hs : Searchable vs) (xs : List Elem) (i : Nat) (q : Option α) :
    enumFill V here vs none xs = some (some (i, q)) ↔
      ∃ v, vs[i]? = some v ∧ (xs.filter fun x => x.name.expanded == v.name.expanded) ≠ [] ∧
        (∀ x ∈ xs, ∀ w ∈ vs, w.name.expanded = x.name.expanded → w.name.expanded = v.name.expanded) ∧
        match v.payload with
        | none => q = none
        | some impl => ∃ p, q = some p ∧ fill V here impl none (xs.filter fun x => x.name.expanded == v.name.expanded) = some (some p) := by
  induction xs with
  | nil => simp [enumFill]
  | cons x xs ih =>
    rw [enumFill_cons]
    simp only [enumFill, List.forall_mem_cons]
    cases hv : variantFor vs x.name.expanded with
    | none =>
      have hn := variantFor_none hv
      simp only [Option.bind_some]
      rw [ih]
      have hne : ∀ v, vs[i]? = some v → (x.name.expanded == v.name.expanded) = false := by
        intro v hi
        rw [beq_eq_false_iff_ne]
        exact fun he => hn v (List.mem_of_getElem? hi) he.symm
      constructor
      · rintro ⟨v, hi, h1, h2, h3⟩
        refine ⟨v, hi, ?_, ⟨fun w hw he => absurd he (hn w hw), h2⟩, ?_⟩
        · simpa only [List.filter_cons, hne v hi, Bool.false_eq_true, if_false] using h1
        · simpa only [List.filter_cons, hne v hi, Bool.false_eq_true, if_false] using h3
      · rintro ⟨v, hi, h1, h2, h3⟩
        simp only [List.filter_cons, hne v hi, Bool.false_eq_true, if_false] at h1 h3
        exact ⟨v, hi, h1, h2.2, h3⟩
    | some w =>
      obtain ⟨j, w⟩ := w
      obtain ⟨hw, hwn⟩ := variantFor_some hv
      simp only
      -- whichever variant it is, the first child decides
      have hdec : ∀ v, vs[i]? = some v → (∀ u ∈ vs, u.name.expanded = x.name.expanded → u.name.expanded = v.name.expanded) → i = j := fun v hi h =>
        hs.distinct i j v w hi hw (h w (List.mem_of_getElem? hw) hwn).symm
      have hne : (x.name.expanded == w.name.expanded) = true := by simp [hwn]
      have h1 : ∀ u ∈ vs, u.name.expanded = x.name.expanded → u.name.expanded = w.name.expanded := fun u _ he => he.trans hwn.symm
      cases hpl : w.payload with
      | none =>
        simp only [Option.bind_some]
        rw [enumFill_some V here hs hw xs none (by rw [hpl]; rfl), hpl]
        constructor
        · rintro ⟨h2, h3⟩
          cases h3
          refine ⟨w, hw, ?_, ⟨h1, h2⟩, ?_⟩
          · simp [List.filter_cons, hne]
          · rw [hpl]
        · rintro ⟨v, hi, -, h2, h3⟩
          cases hdec v hi h2.1
          rw [hw] at hi
          cases hi
          rw [hpl] at h3
          exact ⟨h2.2, by rw [h3]⟩
      | some impl =>
        simp only
        constructor
        · intro h
          cases hm : makes V here x (impl.init (infoOf here x)) with
          | none => rw [hm] at h; cases h
          | some p =>
            rw [hm] at h
            simp only [Option.bind_some] at h
            rw [enumFill_some V here hs hw xs (some p) (by rw [hpl]; rfl), hpl] at h
            obtain ⟨h2, r, h3, h4⟩ := h
            cases h4
            refine ⟨w, hw, ?_, ⟨h1, h2⟩, ?_⟩
            · simp [List.filter_cons, hne]
            · rw [hpl]
              refine ⟨r, rfl, ?_⟩
              simp only [List.filter_cons, hne, if_true, fill, hm]
              exact h3
        · rintro ⟨v, hi, -, h2, h3⟩
          cases hdec v hi h2.1
          rw [hw] at hi
          cases hi
          rw [hpl] at h3
          obtain ⟨r, rfl, h3⟩ := h3
          simp only [List.filter_cons, hne, if_true, fill] at h3
          cases hm : makes V here x (impl.init (infoOf here x)) with
          | none => rw [hm] at h3; cases h3
          | some p =>
            rw [hm] at h3
            simp only [Option.bind_some]
            rw [enumFill_some V here hs hw xs (some p) (by rw [hpl]; rfl), hpl]
            exact ⟨h2.2, r, h3, rfl⟩

theorem enum_read {V : Visitor σ} {ident : String} {vs : List (OVariant σ α)} {emb : OEnum α → σ} (hV : Includes V (enumRaw ident vs) emb)
    (hs : Searchable vs) {proj : σ → Option (OEnum α)} (hp : ∀ t, proj (emb t) = some t) (path : List StackElem) (x : Elem) (r : Nat × Option α) :
    (∃ stop, deser V (deserVia (enumRaw ident vs) emb proj) path x = .ok (.ok r, stop)) ↔ EnumRead V path vs x r := by
  rw [deserVia_ok]
  unfold EnumRead
  generalize path ++ [({ name := x.name, pos := x.pos } : StackElem)] = here
  have hC := content_enum hV hs here x.children none trivial
  have hfin : ∀ c, finishRaw (enumRaw ident vs) (enumSt c) = .ok (.ok r) ↔ c = some r := by
    intro c
    rw [finishRaw_ok]
    cases c with
    | none =>
      constructor
      · rintro ⟨t', h, -⟩
        simp [enumRaw, enumFinalize, enumSt] at h
      · rintro ⟨⟩
    | some q =>
      constructor
      · rintro ⟨t', h, h'⟩
        simp only [enumRaw, enumFinalize, enumSt, Option.isSome_some, if_true, Except.ok.injEq, Prod.mk.injEq, and_true] at h
        subst h
        exact h'
      · rintro ⟨⟩
        exact ⟨_, rfl, rfl⟩
  have key : (∃ s s' t, okContent (attributes V here x.pos x.attrs (emb (enumRaw ident vs).new)) = some s ∧
      okContent (content V here x.children s) = some s' ∧ proj s' = some t ∧ finishRaw (enumRaw ident vs) t = .ok (.ok r)) ↔
      enumFill V here vs none x.children.children = some (some r) := by
    rw [attributes_enum hV]
    constructor
    · rintro ⟨s, s', t, h1, h2, h3, h4⟩
      simp only [Option.some.injEq] at h1
      subst h1
      rw [show (enumRaw ident vs).new = enumSt none from rfl, hC] at h2
      cases hf : enumFill V here vs none x.children.children with
      | none => rw [hf] at h2; cases h2
      | some c =>
        rw [hf] at h2
        simp only [Option.map_some, Option.some.injEq] at h2
        subst h2
        rw [hp] at h3
        cases h3
        rw [(hfin c).mp h4]
    · intro h
      refine ⟨_, emb (enumSt (some r)), enumSt (some r), rfl, ?_, hp _, (hfin _).mpr rfl⟩
      rw [show (enumRaw ident vs).new = enumSt none from rfl, hC, h]
      rfl
  rw [key]
  obtain ⟨i, q⟩ := r
  rw [enumFill_none V here hs]
  have hall : ∀ v : OVariant σ α, (∀ y ∈ x.children.children, ∀ w ∈ vs, w.name.expanded = y.name.expanded → w.name.expanded = v.name.expanded) ↔
      ∀ w ∈ vs, x.children.childrenNamed w.name.expanded ≠ [] → w.name.expanded = v.name.expanded := by
    intro v
    constructor
    · intro h w hw hne
      obtain ⟨y, hy⟩ := List.exists_mem_of_ne_nil _ hne
      have := List.mem_filter.mp hy
      exact h y this.1 w hw (LawfulBEq.eq_of_beq this.2).symm
    · intro h y hy w hw he
      refine h w hw fun h0 => ?_
      have : y ∈ x.children.childrenNamed w.name.expanded := List.mem_filter.mpr ⟨hy, by simp [he]⟩
      rw [h0] at this
      cases this
  constructor
  · rintro ⟨v, h1, h2, h3, h4⟩
    exact ⟨v, h1, h2, (hall v).mp h3, h4⟩
  · rintro ⟨v, h1, h2, h3, h4⟩
    exact ⟨v, h1, h2, (hall v).mpr h3, h4⟩

end SX.Open
