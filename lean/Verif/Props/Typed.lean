import Verif.Spec.Typed
import Verif.Props.Reread

/-! # C64: what is read is of its type, and what is of its type can be written -/
namespace SX
open Spec

/-- C64: every value of a text type has a text. -/
theorem C64_printed {t : TextTy} {v : TVal} (h : OfType t v) : ∃ s, t.toText v = some s := by
  induction h with
  | bool => exact ⟨_, rfl⟩
  | int => exact ⟨_, rfl⟩
  | float => exact ⟨_, rfl⟩
  | string => exact ⟨_, rfl⟩
  | std => exact ⟨_, rfl⟩
  | known h => exact ⟨_, by simp [TextTy.toText, h]; rfl⟩
  | unknown s h => exact ⟨s, by simp [TextTy.toText, h]⟩
  | variant h _ ih =>
    obtain ⟨s, hs⟩ := ih
    exact ⟨s, by simp only [TextTy.toText, toTextAt_eq, h, Option.bind_some, hs]⟩

/-- C64: what is parsed is a value of the type. -/
theorem C64_parsed : (t : TextTy) → (s : String) → (v : TVal) → t.parse s = .ok v → OfType t v
  | .bool, s, v, h => by
    unfold TextTy.parse parseBool at h
    split at h <;> first | (cases h; done) | (cases h; exact .bool _)
  | .int t, s, v, h => by
    obtain ⟨_, n, _, _, h3, rfl⟩ := (C05_int_parse t s v).mp h
    exact .int h3
  | .float f g, s, v, h => by
    unfold TextTy.parse at h
    split at h
    · cases h; exact .float _
    · cases h
  | .string, s, v, h => by cases h; exact .string _
  | .std ws f g, s, v, h => by
    unfold TextTy.parse at h
    rw [parse_normalize] at h
    cases hf : f (normText ws s) with
    | none => simp [hf] at h
    | some n => simp [hf] at h; subst h; exact .std n
  | .restriction name ws vs, s, v, h => by
    have h1 := C06_restriction_parse name ws vs s
    rw [h] at h1
    cases v with
    | known i => exact .known h1.1
    | unknown u => exact .unknown u h1.2.1
    | _ => exact absurd h1 (by simp [RestrictionResult])
  | .union name ws vs, s, v, h => by
    obtain ⟨i, w, t, rfl, h1, h2, -⟩ := (C07_union_parse name ws vs s v).mp h
    have : sizeOf t < sizeOf vs := List.sizeOf_lt_of_mem (List.mem_of_getElem? h1)
    exact .variant h1 (C64_parsed t _ w h2)
termination_by t => sizeOf t

example : OfType exUnion (.variant 1 (.bool true)) := .variant (i := 1) rfl (.bool true)
example : ¬ OfType exUnion (.variant 0 (.int 3000000000)) := by
  intro h
  cases h with
  | variant h hv => simp at h; subst h; cases hv with | int h => simp [inRange] at h

theorem attrTyped_shape {o : Bool} {t : TextTy} {v : Val} (h : AttrTyped o t v) : Shape (.attribute o t) v := by
  have key : ∀ {tv : TVal}, OfType t tv → (t.toText tv).isSome = true := fun h => by
    obtain ⟨s, hs⟩ := C64_printed h
    simp [hs]
  rcases h with ⟨rfl, tv, rfl, h⟩ | ⟨rfl, rfl | ⟨tv, rfl, h⟩⟩
  · exact ⟨tv, rfl, key h⟩
  · exact .inl rfl
  · exact .inr ⟨_, rfl, tv, rfl, key h⟩

/-- C64: Rust's types are enough for the claims about serialization (C31, C32, C35, …), which ask that all texts in a value can be printed. -/
theorem C64_hasTy {env : Env} {ty : Ty} {v : Val} (h : Typed env ty v) : HasTy env ty v := by
  induction h with
  | text h =>
    obtain ⟨s, hs⟩ := C64_printed h
    exact .text (by simp [hs])
  | strct len attrs texts cards _ _ ih1 ih2 =>
    refine .strct len ?_ ih1 ih2
    intro p f v hf hv
    cases hk : f.kind with
    | element s => exact cards p f s v hf hv hk
    | «attribute» o t => exact attrTyped_shape (attrs p f o t v hf hv hk)
    | flatten e => trivial
    | text t => exact attrTyped_shape (o := false) (texts p f t v hf hv hk)
  | unit hv hs => exact .unit hv hs
  | payload hv hs card _ ih => exact .payload hv hs card ih

/-- All children are of any type they are read as. -/
def TypedKids (env : Env) (ks : List Kid) : Prop := ∀ k ∈ ks, ∀ ty v, k.as ty = some v → Typed env ty v

theorem TypedKids.sub {env : Env} {ks ks' : List Kid} (h : TypedKids env ks) (hs : ∀ k ∈ ks', k ∈ ks) : TypedKids env ks' :=
  fun k hk => h k (hs k hk)

theorem slotValue_typed {env : Env} {s : Slot} {absent : Option Val} {ks : List Kid} {v : Val} (hg : TypedKids env ks)
    (h : slotValue s absent ks = some v) :
    (ks = [] ∧ absent = some v) ∨ (CardOk s.card v ∧ ∀ w ∈ valuesOf s.card v, Typed env s.ty w) := by
  cases ks with
  | nil => exact .inl ⟨rfl, h⟩
  | cons k ks =>
    right
    simp only [slotValue] at h
    cases hc : s.card with
    | one =>
      simp only [hc] at h
      split at h
      · refine ⟨trivial, ?_⟩
        simp only [valuesOf, List.mem_singleton, forall_eq]
        exact hg k (by simp) _ _ h
      · cases h
    | opt =>
      simp only [hc] at h
      split at h
      · obtain ⟨w, hw, rfl⟩ := Option.map_eq_some_iff.mp h
        refine ⟨⟨_, rfl⟩, ?_⟩
        simp only [valuesOf, List.mem_singleton, forall_eq]
        exact hg k (by simp) _ _ hw
      · cases h
    | many =>
      simp only [hc] at h
      obtain ⟨l, hl, rfl⟩ := Option.map_eq_some_iff.mp h
      refine ⟨⟨_, rfl⟩, ?_⟩
      intro w hw
      obtain ⟨k', hk', h'⟩ := allAs_mem hl w hw
      exact hg k' hk' _ _ h'

theorem enumValue_typed {env : Env} {e : Nat} {ks : List Kid} {v : Val} (hg : TypedKids env ks)
    (h : enumValue (env.enm e) ks = some v) : Typed env (.enm e) v := by
  unfold enumValue at h
  split at h
  · cases h
  · rename_i i k rest hc
    split at h
    · split at h
      · cases h
      · rename_i w hw
        split at h
        · rename_i hs
          cases h
          exact .unit hw hs
        · rename_i s hs
          obtain ⟨p, hp, rfl⟩ := Option.map_eq_some_iff.mp h
          have hmem : ∀ x ∈ k :: rest.map Prod.snd, x ∈ ks := by
            have : ∀ c ∈ choices (env.enm e) ks, c.2 ∈ ks := by
              intro c hc
              simp only [choices, List.mem_filterMap] at hc
              obtain ⟨a, ha, h⟩ := hc
              obtain ⟨_, _, rfl⟩ := Option.map_eq_some_iff.mp h
              exact ha
            rw [hc] at this
            intro x hx
            rcases List.mem_cons.mp hx with rfl | hx
            · exact this (i, x) (by simp)
            · obtain ⟨c, hc, rfl⟩ := List.mem_map.mp hx
              exact this c (List.mem_cons_of_mem _ hc)
          rcases slotValue_typed (hg.sub hmem) hp with ⟨h1, -⟩ | ⟨h1, h2⟩
          · simp at h1
          · exact .payload hw hs h1 h2
    · cases h

theorem attrValue_typed {f : Field} {o : Bool} {t : TextTy} {l : List XAttr} {v : Val} (hd : ∀ d, f.default = some d → AttrTyped o t d)
    (h : attrValue o t (f.default.or (attrAbsent o)) l = some v) : AttrTyped o t v := by
  match l, h with
  | [], h =>
    simp only [attrValue] at h
    cases hdf : f.default with
    | some d =>
      rw [hdf] at h
      simp only [Option.some_or, Option.some.injEq] at h
      subst h
      exact hd _ hdf
    | none =>
      rw [hdf] at h
      cases o with
      | false => simp [attrAbsent] at h
      | true =>
        simp [attrAbsent] at h
        subst h
        exact .inr ⟨rfl, .inl rfl⟩
  | [a], h =>
    simp only [attrValue] at h
    split at h
    · rename_i tv htv
      cases h
      have := C64_parsed _ _ _ htv
      cases o with
      | false => exact .inl ⟨rfl, tv, rfl, this⟩
      | true => exact .inr ⟨rfl, .inr ⟨tv, rfl, this⟩⟩
    · cases h
  | _ :: _ :: _, h => simp [attrValue] at h

theorem structValue_typed {env : Env} (hd : DefaultsTyped env) {i : Nat} {b : Body} {v : Val}
    (hg : TypedKids env b.kids) (h : structValue env (env.strct i).fields b = some v) : Typed env (.strct i) v := by
  obtain ⟨vs, hvs, rfl⟩ := Option.map_eq_some_iff.mp h
  have hget : ∀ (p : Nat) (f : Field) (v : Val), (env.strct i).fields[p]? = some f → vs[p]? = some v →
      f ∈ (env.strct i).fields ∧ ∃ earlier, fieldValue env (env.strct i).fields b earlier f = some v := by
    intro p f v hf hv
    obtain ⟨pre, post, h1, h2⟩ := getElem?_split hf
    have h3 := hvs
    generalize hall : (env.strct i).fields = all at h3
    have h4 : fieldsValue env all b [] (pre ++ f :: post) = some vs := by rw [← h1, hall]; exact h3
    have := (fieldsValue_get env all b [] pre f post vs h4).1
    rw [h2, hv] at this
    exact ⟨List.mem_of_getElem? (hall ▸ hf), _, this⟩
  have hel : ∀ (p : Nat) (f : Field) (s : Slot) (v : Val), (env.strct i).fields[p]? = some f → vs[p]? = some v → f.kind = .element s →
      CardOk s.card v ∧ ∀ w ∈ valuesOf s.card v, Typed env s.ty w := by
    intro p f s v hf hv hk
    obtain ⟨hm, ea, h⟩ := hget p f v hf hv
    simp only [fieldValue, hk] at h
    rcases slotValue_typed (hg.sub fun _ h => (List.mem_filter.mp h).1) h with ⟨-, h2⟩ | h1
    · cases hdf : f.default with
      | some d =>
        rw [hdf] at h2
        simp only [Option.some_or, Option.some.injEq] at h2
        subst h2
        exact hd.elems i f s d hm hk hdf
      | none =>
        rw [hdf] at h2
        simp only [Option.none_or] at h2
        unfold slotAbsent at h2
        cases hc : s.card with
        | one => simp [hc] at h2
        | opt =>
          simp [hc] at h2
          subst h2
          exact ⟨⟨_, rfl⟩, by simp [valuesOf]⟩
        | many =>
          simp [hc] at h2
          subst h2
          exact ⟨⟨_, rfl⟩, by simp [valuesOf]⟩
    · exact h1
  refine .strct (values_length hvs) ?_ ?_ (fun p f s v hf hv hk => (hel p f s v hf hv hk).1) (fun p f s v w hf hv hk hw => (hel p f s v hf hv hk).2 w hw) ?_
  · intro p f o t v hf hv hk
    obtain ⟨hm, ea, h⟩ := hget p f v hf hv
    simp only [fieldValue, hk] at h
    exact attrValue_typed (fun d hdf => hd.attrs i f o t d hm hk hdf) h
  · intro p f t v hf hv hk
    obtain ⟨hm, ea, h⟩ := hget p f v hf hv
    simp [fieldValue, hk] at h
  · intro p f e v hf hv hk
    obtain ⟨hm, ea, h⟩ := hget p f v hf hv
    simp only [fieldValue, hk] at h
    exact enumValue_typed (hg.sub fun k hk => strangers_mem k (past_mem env _ _ k hk)) h

theorem bodyValue_typed {env : Env} (hd : DefaultsTyped env) {b : Body} (hg : TypedKids env b.kids) {ty : Ty} {v : Val}
    (h : bodyValue env b ty = some v) : Typed env ty v := by
  cases ty with
  | text t =>
    simp only [bodyValue] at h
    split at h
    · split at h
      · rename_i tv htv
        cases h
        exact .text (C64_parsed _ _ _ htv)
      · cases h
    · cases h
  | strct i => exact structValue_typed hd hg h
  | enm i => exact enumValue_typed hg h

theorem kids_typed {env : Env} (hd : DefaultsTyped env) (f : Forest) : TypedKids env (kids env f) := by
  induction f with
  | nil => intro k hk; simp [kids] at hk
  | elem n a ns p ch ep rest ih1 ih2 =>
    intro k hk
    simp only [kids, List.mem_cons] at hk
    rcases hk with rfl | hk
    · intro ty v hv
      exact bodyValue_typed hd (b := { attrs := a, kids := kids env ch, text := ch.text }) ih1 hv
    · exact ih2 k hk
  | chars s c p rest ih => exact ih
  | misc m p rest ih => exact ih

/-- C64: what is read from a document is a value of the type asked for. -/
theorem C64_read (dbg : Bool) (env : Env) (hok : EnvOk env) (hd : DefaultsTyped env) (ty : Ty) (d : Doc) (v : Val)
    (h : readTy dbg env ty d.input = .ok (.ok v)) : Typed env ty v :=
  bodyValue_typed hd (b := d.root.body env) (kids_typed hd _) ((C18_value dbg env hok ty d v).mp h)

/-- C64: so it can be written: with a sink that accepts everything, the result is the document that represents it. -/
theorem C64_write (dbg dbg' : Bool) (sink : Sink) (hs : ∀ out e, sink out e = none) (env : Env) (hok : EnvOk env) (hd : DefaultsTyped env)
    (henv : NamesDeclared env) (ty : Ty) (name : EName) (hn : ElemNsOk (urls (declaredNs env ty)) name)
    (hc : NoClash env name) (d : Doc) (v : Val) (h : readTy dbg env ty d.input = .ok (.ok v)) :
    ∃ s as g, serializeVal dbg' sink env name ty v = .ok (s, .ok ()) ∧ Represents env name ty v as g ∧
      resolveEvents s.out [] = some (.start name as :: (g.events ++ [.stop])) := by
  obtain ⟨s, r, as, g, h1, h2, h3, h4⟩ := C32_types_partial dbg' sink env henv (envOk_distinct hok) name ty hn hc v (C64_hasTy (C64_read dbg env hok hd ty d v h))
  have := h4 hs
  subst this
  exact ⟨s, as, g, h1, h2, h3 rfl⟩

/-! The hypotheses are met by the types of `ExR`; a field there has the default `Some(true)`. -/
namespace ExR
open ExS (bookFields libFields)

theorem one_typed : DefaultsTyped one where
  elems := by
    intro i f s d hf hk hd
    simp only [one, env] at hf
    split at hf <;> simp only [libFields, bookFields, twoFields, optFields, List.mem_cons, List.not_mem_nil, or_false] at hf
    · rcases hf with rfl | rfl | rfl | rfl | rfl | rfl <;> simp at hd
    · rcases hf with rfl | rfl <;> simp at hd
    · rcases hf with rfl | rfl <;> simp at hd
    · rcases hf with rfl | rfl <;> simp at hd
      subst hd
      simp at hk
      subst hk
      refine ⟨⟨_, rfl⟩, ?_⟩
      simp only [valuesOf, List.mem_singleton, forall_eq]
      exact .text (.bool true)
  attrs := by
    intro i f o t d hf hk hd
    simp only [one, env] at hf
    split at hf <;> simp only [libFields, bookFields, twoFields, optFields, List.mem_cons, List.not_mem_nil, or_false] at hf
    · rcases hf with rfl | rfl | rfl | rfl | rfl | rfl <;> simp at hd
    all_goals rcases hf with rfl | rfl <;> simp at hk

end ExR

/-- The value of `C45_blank_counterexample`, which is not read back, can be written all the same. -/
example : ∃ s as g, serializeVal true (fun _ _ => none) ExR.one { ns := "urn:x", loc := "Opt" } (.strct 3)
      (.strct [.opt (some (.text (.bool true))), .text (.str " ")]) = .ok (s, .ok ()) ∧
    Represents ExR.one { ns := "urn:x", loc := "Opt" } (.strct 3) (.strct [.opt (some (.text (.bool true))), .text (.str " ")]) as g ∧
    resolveEvents s.out [] = some (.start { ns := "urn:x", loc := "Opt" } as :: (g.events ++ [.stop])) :=
  C64_write true true _ (fun _ _ => rfl) ExR.one ExR.one_ok ExR.one_typed ExR.one_declared (.strct 3) _
    (.inr (.inl (by simp [urls, declaredNs, ExR.one, ExR.env]))) (.inr ⟨ExR.one_named, by decide⟩)
    (ExR.optDoc (ExR.inX "s" (.chars " " true ⟨1, 6⟩ .nil) .nil)) _ rfl

/-- A struct without its second field, and one with a text where an `Option` should be, are not of the type. -/
example : ¬ Typed ExR.one (.strct 3) (.strct [.opt none]) ∧ ¬ Typed ExR.one (.strct 3) (.strct [.text (.bool true), .text (.str "")]) := by
  constructor
  · intro h
    cases h with
    | strct len => simp [ExR.one, ExR.env, ExR.optFields] at len
  · intro h
    cases h with
    | strct _ _ _ cards =>
      obtain ⟨o, ho⟩ := cards 0 _ _ _ rfl rfl rfl
      cases ho

end SX
