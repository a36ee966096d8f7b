import Verif.Spec.DocumentedSer
import Verif.Proof.Prefixes
import Verif.Proof.WriterNames
import Verif.Proof.WriterTotal

namespace SX
open Spec

/-! ### Builders that occur -/

namespace DocSer

/-- What holds of them. -/
structure Inv (b : NsBuilder) : Prop where
  ok : b.Ok
  needs : ∀ u e, SMap.get b u = some e → e.needsPrefix = true → e.required = true
  apart : ∀ u v e e', SMap.get b u = some e → SMap.get b v = some e' → e.required = false → e'.required = false → e.requested = e'.requested → u = v

theorem Inv.set {b : NsBuilder} (h : Inv b) (u : String) (e : NsEntry) (ha : e.assigned = none) (hr : e.required = true) : Inv (SMap.set u e b) := by
  refine ⟨h.ok.set u e ha, ?_, ?_⟩
  · intro v e' he hn
    rw [SMap.get_set] at he
    split at he
    · cases he; exact hr
    · exact h.needs v e' he hn
  · intro v w e1 e2 h1 h2 r1 r2 hq
    rw [SMap.get_set] at h1 h2
    split at h1
    · cases h1; rw [hr] at r1; cases r1
    · split at h2
      · cases h2; rw [hr] at r2; cases r2
      · exact h.apart v w e1 e2 h1 h2 r1 r2 hq

theorem reached_inv {dbg : Bool} {b : NsBuilder} (h : Reached dbg b) : Inv b := by
  induction h with
  | root => exact ⟨.nil, (fun _ _ h => by simp [SMap.get_nil] at h), (fun _ _ _ _ h => by simp [SMap.get_nil] at h)⟩
  | child b n url hb hf ih =>
    obtain ⟨n', h1, h2, -⟩ := finalize_spec b ih.ok
    rw [hf] at h1
    cases h1
    have hu := byPrefix_urls h2
    have key : ∀ u e, SMap.get (n.child url) u = some e → e.needsPrefix = false ∧ n.byPrefix.get e.requested = some u := by
      intro u e he
      by_cases hm : u ∈ n.byPrefix.map Prod.snd
      · obtain ⟨x, hx, rfl⟩ := List.mem_map.mp hm
        have := (childLoop_get url n.byPrefix hu false [] x.2).1 x.1 hx
        rw [Namespaces.child, this] at he
        cases he
        exact ⟨rfl, SMap.mem_get h2.prefixes hx⟩
      · rw [Namespaces.child, (childLoop_get url n.byPrefix hu false [] u).2 hm, SMap.get_nil] at he
        cases he
    refine ⟨n.child_ok url, ?_, ?_⟩
    · intro u e he hn
      rw [(key u e he).1] at hn
      cases hn
    · intro u v e e' h1 h2 _ _ hq
      have a := (key u e h1).2
      have b := (key v e' h2).2
      rw [hq, b] at a
      cases a
      rfl
  | «namespace» b b' pfx url hb hi ih =>
    unfold NsBuilder.insert at hi
    split at hi
    · cases hi
    · split at hi
      · cases hi
        exact ih.set _ _ rfl rfl
      · rename_i e he
        cases hi
        exact ih.set _ _ (ih.ok.fresh _ (SMap.get_mem he)) rfl
  | «attribute» b url hb ih =>
    unfold NsBuilder.attribute
    split
    · exact ih
    · rename_i e he
      exact ih.set _ _ (ih.ok.fresh _ (SMap.get_mem he)) rfl

/-- Mappings that exist stay; an inherited mapping gets the prefix it had, or that prefix is taken. -/
theorem passInherited_fate (m : SMap String) (l : NsBuilder) (hl : ∀ x ∈ l, x.2.required = false → x.2.assigned = none) {m' : SMap String} {l' : NsBuilder}
    (h : passInherited m l = (m', l')) : (∀ p u, m.get p = some u → m'.get p = some u) ∧
      ∀ x ∈ l', x.2.required = false → x.2.assigned = some x.2.requested ∨ x.2.assigned = none ∧ ∃ v, m'.get x.2.requested = some v := by
  induction l generalizing m m' l' with
  | nil =>
    simp only [passInherited, Prod.mk.injEq] at h
    obtain ⟨rfl, rfl⟩ := h
    exact ⟨fun _ _ h => h, by simp⟩
  | cons x l ih =>
    obtain ⟨u, e⟩ := x
    have hl' : ∀ x ∈ l, x.2.required = false → x.2.assigned = none := fun x hx => hl x (List.mem_cons_of_mem _ hx)
    unfold passInherited at h
    by_cases hr : e.required = true
    · rcases hp : passInherited m l with ⟨m1, l1⟩
      simp only [hr, if_true, hp, Prod.mk.injEq] at h
      obtain ⟨rfl, rfl⟩ := h
      obtain ⟨a, b⟩ := ih m hl' hp
      refine ⟨a, fun x hx hq => ?_⟩
      rcases List.mem_cons.mp hx with rfl | hx
      · rw [hr] at hq; cases hq
      · exact b x hx hq
    · have hrf : e.required = false := by simpa using hr
      simp only [hrf, Bool.false_eq_true, if_false] at h
      rcases hn : nsPut m e.requested u with ⟨m1, t⟩
      rw [hn] at h
      cases t with
      | true =>
        obtain ⟨k1, rfl⟩ := nsPut_true hn
        rcases hp : passInherited (SMap.insertNew e.requested u m) l with ⟨m2, l2⟩
        simp only [hp, Prod.mk.injEq] at h
        obtain ⟨rfl, rfl⟩ := h
        obtain ⟨a, b⟩ := ih _ hl' hp
        refine ⟨fun p v hv => a p v ?_, fun x hx hq => ?_⟩
        · rw [SMap.get_insertNew m _ _ _ k1]
          split
          · rename_i heq; subst heq; rw [k1] at hv; cases hv
          · exact hv
        · rcases List.mem_cons.mp hx with rfl | hx
          · exact .inl rfl
          · exact b x hx hq
      | false =>
        obtain ⟨k1, rfl⟩ := nsPut_false hn
        rcases hp : passInherited m1 l with ⟨m2, l2⟩
        simp only [hp, Prod.mk.injEq] at h
        obtain ⟨rfl, rfl⟩ := h
        obtain ⟨a, b⟩ := ih _ hl' hp
        refine ⟨a, fun x hx hq => ?_⟩
        rcases List.mem_cons.mp hx with rfl | hx
        · refine .inr ⟨hl (u, e) List.mem_cons_self hq, ?_⟩
          obtain ⟨v, hv⟩ := Option.isSome_iff_exists.mp k1
          exact ⟨v, a _ _ hv⟩
        · exact b x hx hq

theorem finalize_fate {b : NsBuilder} (hb : b.Ok) {n : Namespaces} (h : b.finalize = .ok n) (u : String) (e : NsEntry) (he : n.byUrl.get u = some e)
    (hr : e.required = false) : e.assigned = some e.requested ∨ e.assigned = none ∧ ∃ v, n.byPrefix.get e.requested = some v := by
  obtain ⟨m1, l1, h1, h2, h3, h4, h5⟩ := passRequired_spec [] b (by simp [SMap.keys]) hb.fresh
  rcases hp : passInherited m1 l1 with ⟨m2, l2⟩
  unfold NsBuilder.finalize at h
  simp only [h1, hp, Except.ok.injEq] at h
  subst h
  exact (passInherited_fate m1 l1 (fun x hx hxr => by simpa [hxr] using h5 x hx) hp).2 (u, e) (SMap.get_mem he) hr

/-! ### Types with other names of root elements -/

section
variable (env : Env) (f g : Nat → DName) (p q : Nat → List (String × String))

theorem finalizeFields_same {env env' : Env} (hi : ∀ e, (env'.enm e).ident = (env.enm e).ident) (fs : List Field) (sts : List FState) :
    finalizeFields env' fs sts = finalizeFields env fs sts := by
  induction fs generalizing sts with
  | nil => rfl
  | cons x fs ih =>
    cases sts with
    | nil => rfl
    | cons st sts =>
      have : finalizeField env' x st = finalizeField env x st := by
        unfold finalizeField
        split <;> first | rfl | rw [hi]
      simp only [finalizeFields, ih, this]

/-- Reading uses of the types only these parts. -/
structure SameRead (env env' : Env) : Prop where
  fields : ∀ i, (env'.strct i).fields = (env.strct i).fields
  ident : ∀ i, (env'.enm i).ident = (env.enm i).ident
  variants : ∀ i, (env'.enm i).variants = (env.enm i).variants

theorem finalize_same {env env' : Env} (h : SameRead env env') : finalize env' = finalize env := by
  funext s
  cases s with
  | strct i fs => simp only [finalize, h.fields, finalizeFields_same h.ident]
  | enm i st => simp only [finalize, h.ident]

theorem deserTy_same {env env' : Env} (h : SameRead env env') : deserTy env' = deserTy env := by
  funext ty
  cases ty with
  | text t => rfl
  | strct i => simp only [deserTy, newStruct, h.fields, finalize_same h]
  | enm i => simp only [deserTy, finalize_same h]

theorem enumElement_same {env env' : Env} (h : SameRead env env') : enumElement env' = enumElement env := by
  funext e st n
  unfold enumElement slotUpdate slotInit
  simp only [h.variants, deserTy_same h]

theorem delegate_same {env env' : Env} (h : SameRead env env') (i : Nat) (fs : List FState) (n : EName) (l : List (Nat × Nat)) :
    delegate env' i fs n l = delegate env i fs n l := by
  induction l with
  | nil => rfl
  | cons x l ih => simp only [delegate, enumElement_same h, ih]

theorem derivedVisitor_same {env env' : Env} (h : SameRead env env') : derivedVisitor env' = derivedVisitor env := by
  have hs : structElement env' = structElement env := by
    funext i fs n
    unfold structElement slotUpdate slotInit
    simp only [h.fields, deserTy_same h, delegate_same h]
  have ha : structAttribute env' = structAttribute env := by
    funext i fs n s
    unfold structAttribute
    simp only [h.fields]
  unfold derivedVisitor
  simp only [hs, ha, enumElement_same h]

theorem readTy_same {env env' : Env} (h : SameRead env env') (dbg : Bool) (ty : Ty) (i : Input) : readTy dbg env' ty i = readTy dbg env ty i := by
  unfold readTy
  rw [derivedVisitor_same h, deserTy_same h]

theorem writeFlattenAttrs_roots (fs : List Field) : writeFlattenAttrs (withRoots env f g) fs = writeFlattenAttrs env fs := by
  induction fs with
  | nil => rfl
  | cons x fs ih => simp only [writeFlattenAttrs, ih]; rfl

theorem writeAttributes_roots (ty : Ty) (v : Val) : writeAttributes (withRoots env f g) ty v = writeAttributes env ty v := by
  unfold writeAttributes
  split
  · rw [writeFlattenAttrs_roots]; rfl
  · rfl
  · rfl

mutual
theorem writeChildren_roots {o : Bool} {hs : List Handle} (ty : Ty) (v : Val) (k : WCont o hs) :
    writeChildren (withRoots env f g) ty v k = writeChildren env ty v k := by
  rw [writeChildren.eq_def, writeChildren.eq_def env]
  cases ty with
  | text t => cases v <;> rfl
  | strct i =>
    cases v with
    | strct vs =>
      dsimp only
      rw [writeElemFields_roots]
      congr 1
      funext r
      rcases r with e | ⟨⟩
      · rfl
      · exact writeFlattens_roots _ vs k
    | _ => rfl
  | enm i =>
    cases v with
    | enm j p =>
      dsimp only [withRoots]
      cases (env.enm i).variants[j]? with
      | none => rfl
      | some w =>
        dsimp only
        split
        · rfl
        · cases hs : w.slot with
          | none => cases p <;> rfl
          | some s =>
            cases p with
            | none => rfl
            | some p => exact writeField_roots s _ p k
    | _ => rfl
termination_by 2 * sizeOf v
decreasing_by all_goals (simp_wf <;> (try simp only [wfParam]) <;> omega)

theorem writeField_roots {o : Bool} {hs : List Handle} (s : Slot) (name : EName) (v : Val) (k : WCont o hs) :
    writeField (withRoots env f g) s name v k = writeField env s name v k := by
  rw [writeField.eq_def, writeField.eq_def env]
  obtain ⟨card, ty⟩ := s
  cases card with
  | one =>
    dsimp only
    rw [writeAttributes_roots]
    congr 1
    funext k
    exact writeChildren_roots ty v k
  | opt =>
    cases v with
    | opt x =>
      cases x with
      | none => rfl
      | some w =>
        dsimp only
        rw [writeAttributes_roots]
        congr 1
        funext k
        exact writeChildren_roots ty w k
    | _ => rfl
  | many =>
    cases v with
    | vec l => exact writeVec_roots ty name l k
    | _ => rfl
termination_by 2 * sizeOf v + 1
decreasing_by all_goals (simp_wf <;> (try simp only [wfParam]) <;> omega)

theorem writeVec_roots {o : Bool} {hs : List Handle} (ty : Ty) (name : EName) (l : List Val) (k : WCont o hs) :
    writeVec (withRoots env f g) ty name l k = writeVec env ty name l k := by
  rw [writeVec.eq_def, writeVec.eq_def env]
  match l with
  | [] => rfl
  | v :: l =>
    dsimp only
    rw [writeAttributes_roots]
    congr 1
    · funext k
      exact writeChildren_roots ty v k
    · funext r
      rcases r with e | ⟨⟩
      · rfl
      · exact writeVec_roots ty name l k
termination_by 2 * sizeOf l
decreasing_by all_goals (simp_wf <;> (try simp only [wfParam]) <;> omega)

theorem writeElemFields_roots {o : Bool} {hs : List Handle} (fs : List Field) (vs : List Val) (k : WCont o hs) :
    writeElemFields (withRoots env f g) fs vs k = writeElemFields env fs vs k := by
  rw [writeElemFields.eq_def, writeElemFields.eq_def env]
  match fs, vs with
  | [], _ => rfl
  | _ :: _, [] => rfl
  | x :: fs, v :: vs =>
    dsimp only
    cases x.kind with
    | element s =>
      dsimp only
      rw [writeField_roots]
      congr 1
      funext r
      rcases r with e | ⟨⟩
      · rfl
      · exact writeElemFields_roots fs vs k
    | _ => exact writeElemFields_roots fs vs k
termination_by 2 * sizeOf vs
decreasing_by all_goals (simp_wf <;> (try simp only [wfParam]) <;> omega)

theorem writeFlattens_roots {o : Bool} {hs : List Handle} (fs : List Field) (vs : List Val) (k : WCont o hs) :
    writeFlattens (withRoots env f g) fs vs k = writeFlattens env fs vs k := by
  rw [writeFlattens.eq_def, writeFlattens.eq_def env]
  match fs, vs with
  | [], _ => rfl
  | _ :: _, [] => rfl
  | x :: fs, v :: vs =>
    dsimp only
    cases x.kind with
    | flatten e =>
      dsimp only
      rw [writeChildren_roots]
      congr 1
      funext r
      rcases r with e | ⟨⟩
      · rfl
      · exact writeFlattens_roots fs vs k
    | _ => exact writeFlattens_roots fs vs k
termination_by 2 * sizeOf vs
decreasing_by all_goals (simp_wf <;> (try simp only [wfParam]) <;> omega)
end

end

end DocSer

end SX
