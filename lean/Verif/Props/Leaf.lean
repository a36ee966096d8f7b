import Verif.Proof.Leaf
import Verif.Props.LocalRead
import Verif.Props.WholeLocal

/-
C111: every text in what is read comes from one text in the document, or from a default.
-/
namespace SX
open Spec LocalRead Leaf

/-- **C111**. Every text in a value read from a document (`C` is the value around it) comes from
* the text of one element: with any element of that name instead, the document is read as the same value with the text of that element there, or not if that element is not such a text;
* one attribute: with any other text in it, the same;
* the default of a field of a struct that was read from an element with nothing for that field. -/
theorem C111_origin (dbg : Bool) (env : Env) (hok : EnvOk env) (ty : Ty) (d : Doc) (C : Val → Val) (hC : Place C) (u : TVal) (h : readTy dbg env ty d.input = .ok (.ok (C (.text u)))) :
    ∃ G y, Opened d.root G ∧ d.root = G y ∧
      ((∃ t, ∀ z : Elem, z.name.expanded = y.name.expanded → ∀ v, readTy dbg env ty ({ d with root := G z } : Doc).input = .ok (.ok v) ↔
          ∃ w, readTy dbg env (.text t) ({ d with root := z } : Doc).input = .ok (.ok w) ∧ v = C w) ∨
       (∃ a b x t, y.attrs = a ++ x :: b ∧ ∀ s v, readTy dbg env ty ({ d with root := G { y with attrs := a ++ ⟨x.name, s⟩ :: b } } : Doc).input = .ok (.ok v) ↔
          ∃ w, parsed t s = some w ∧ v = C w) ∨
       ∃ i f C0 D l m, (env.strct i).fields[l.length]? = some f ∧ Place C0 ∧ Place D ∧ C = (fun w => C0 (.strct (l ++ D w :: m))) ∧ f.default = some (D (.text u)) ∧ NothingFor f y ∧
          ∀ z : Elem, z.name.expanded = y.name.expanded → ∀ v, readTy dbg env ty ({ d with root := G z } : Doc).input = .ok (.ok v) ↔
            ∃ w, readTy dbg env (.strct i) ({ d with root := z } : Doc).input = .ok (.ok w) ∧ v = C0 w) := by
  rw [C18_value dbg env hok] at h
  obtain ⟨G, y, h1, h2, h3⟩ := origin env hok _ d.root (Nat.le_refl _) ty C (.text u) trivial hC h
  refine ⟨G, y, h1, h2, ?_⟩
  cases h3 with
  | own ty' fits h =>
    rcases fits with ⟨t, -, rfl, -⟩ | ⟨i, l, -, hn⟩
    case inr => cases hn
    refine .inl ⟨t, fun z hz v => ?_⟩
    simp only [C18_value dbg env hok, h z hz, map_place]
  | «attribute» a b x t _ has h =>
    refine .inr (.inl ⟨a, b, x, t, has, fun s v => ?_⟩)
    simp only [C18_value dbg env hok, h s, map_place]
  | default i f C0 D l m mem p1 p2 hC hd hno h =>
    refine .inr (.inr ⟨i, f, C0, D, l, m, mem, p1, p2, hC, hd, hno, fun z hz v => ?_⟩)
    simp only [C18_value dbg env hok, h z hz, map_place]

/-- **C111**, for the structs in a value: each is what one element of the document is as such a struct, and with any element of that name instead the document is read as the same value with
what that element is there, or not if that element is no such struct; or it is in the default of a field of a struct that was read from an element with nothing for that field. -/
theorem C111_struct (dbg : Bool) (env : Env) (hok : EnvOk env) (ty : Ty) (d : Doc) (C : Val → Val) (hC : Place C) (vs : List Val) (h : readTy dbg env ty d.input = .ok (.ok (C (.strct vs)))) :
    ∃ G y, Opened d.root G ∧ d.root = G y ∧
      ((∃ i, readTy dbg env (.strct i) ({ d with root := y } : Doc).input = .ok (.ok (.strct vs)) ∧
          ∀ z : Elem, z.name.expanded = y.name.expanded → ∀ v, readTy dbg env ty ({ d with root := G z } : Doc).input = .ok (.ok v) ↔
            ∃ w, readTy dbg env (.strct i) ({ d with root := z } : Doc).input = .ok (.ok w) ∧ v = C w) ∨
       ∃ i f C0 D l m, (env.strct i).fields[l.length]? = some f ∧ Place C0 ∧ Place D ∧ C = (fun w => C0 (.strct (l ++ D w :: m))) ∧ f.default = some (D (.strct vs)) ∧ NothingFor f y ∧
          ∀ z : Elem, z.name.expanded = y.name.expanded → ∀ v, readTy dbg env ty ({ d with root := G z } : Doc).input = .ok (.ok v) ↔
            ∃ w, readTy dbg env (.strct i) ({ d with root := z } : Doc).input = .ok (.ok w) ∧ v = C0 w) := by
  have h0 := h
  rw [C18_value dbg env hok] at h
  obtain ⟨G, y, h1, h2, h3⟩ := origin env hok _ d.root (Nat.le_refl _) ty C (.strct vs) trivial hC h
  refine ⟨G, y, h1, h2, ?_⟩
  cases h3 with
  | own ty' fits h =>
    rcases fits with ⟨t, v, -, hn⟩ | ⟨i, l, rfl, -⟩
    · cases hn
    have key : ∀ z : Elem, z.name.expanded = y.name.expanded → ∀ v, readTy dbg env ty ({ d with root := G z } : Doc).input = .ok (.ok v) ↔
        ∃ w, readTy dbg env (.strct i) ({ d with root := z } : Doc).input = .ok (.ok w) ∧ v = C w := fun z hz v => by
      simp only [C18_value dbg env hok, h z hz, map_place]
    have hd : ({ d with root := G y } : Doc) = d := by rw [← h2]
    obtain ⟨w, h4, h5⟩ := (key y rfl (C (.strct vs))).mp (by rw [hd]; exact h0)
    rw [← place_inj hC h5] at h4
    exact .inl ⟨i, h4, key⟩
  | «attribute» a b x t isText has h =>
    obtain ⟨v, hv⟩ := isText
    cases hv
  | default i f C0 D l m mem p1 p2 hC hd hno h =>
    refine .inr ⟨i, f, C0, D, l, m, mem, p1, p2, hC, hd, hno, fun z hz v => ?_⟩
    simp only [C18_value dbg env hok, h z hz, map_place]

/-- C111, without saying what else would be read: there is an element in the document that the text is the text of, or that has an attribute that it is the text of, or that lacks what a
declared default stands for. -/
theorem C111_nothing_made_up (dbg : Bool) (env : Env) (hok : EnvOk env) (ty : Ty) (d : Doc) (C : Val → Val) (hC : Place C) (u : TVal) (h : readTy dbg env ty d.input = .ok (.ok (C (.text u)))) :
    ∃ y, (y = d.root ∨ ∃ c, Around c ∧ d = d.with c y) ∧
      ((∃ t : TextTy, y.children.names = [] ∧ t.parse y.children.text = .ok u) ∨ (∃ a ∈ y.attrs, ∃ t : TextTy, t.parse a.value = .ok u) ∨
        ∃ i f D, f ∈ (env.strct i).fields ∧ f.default = some (D (.text u)) ∧ Place D ∧ NothingFor f y) := by
  obtain ⟨G, y, h1, h2, h3⟩ := C111_origin dbg env hok ty d C hC u h
  have hd : ({ d with root := G y } : Doc) = d := by rw [← h2]
  refine ⟨y, ?_, ?_⟩
  · cases h1 with
    | root => exact .inl h2.symm
    | @inside c hc => exact .inr ⟨c, hc, hd.symm⟩
  · rcases h3 with ⟨t, h3⟩ | ⟨a, b, x, t, h3, h4⟩ | ⟨i, f, C0, D, l, m, h3, -, h4, -, h5, h6, -⟩
    · have := (h3 y rfl (C (.text u))).mp (by rw [hd]; exact h)
      obtain ⟨w, h4, h5⟩ := this
      rw [← place_inj hC h5, C18_value dbg env hok] at h4
      simp only [bodyValue] at h4
      split at h4
      · rename_i hk
        split at h4
        · rename_i v hv
          simp only [Option.some.injEq, Val.text.injEq] at h4
          subst h4
          refine .inl ⟨t, ?_, hv⟩
          have : kids env y.children = [] := hk
          rw [← Leaf.kids_names env, this]
          rfl
        · cases h4
      · cases h4
    · refine .inr (.inl ⟨x, by rw [h3]; simp, t, ?_⟩)
      have hy : ({ y with attrs := a ++ ⟨x.name, x.value⟩ :: b } : Elem) = y := by rw [show (⟨x.name, x.value⟩ : XAttr) = x from rfl, ← h3]
      have := (h4 x.value (C (.text u))).mp (by rw [hy, hd]; exact h)
      obtain ⟨w, h5, h6⟩ := this
      rw [← place_inj hC h6] at h5
      unfold parsed at h5
      split at h5
      · rename_i v hv
        simp only [Option.some.injEq, Val.text.injEq] at h5
        rw [hv, h5]
      · cases h5
    · exact .inr (.inr ⟨i, f, D, List.mem_of_getElem? h3, h5, h4, h6⟩)

open Spec.Gen Gen SourceOk in
/-- C111 for the code emitted for a program: what is not from a default is from the document. -/
theorem C111_crate (c : Crate) (ho : InOrder c) (hap : Apart c) (code : Emitted) (types : Types) (ha : Accepted c code) (ht : c.Tied code types) (dbg : Bool) (ty : Ty) (d : Doc)
    (C : Val → Val) (hC : Place C) (u : TVal) (h : c.read code types dbg ty d.input = .ok (.ok (C (.text u)))) :
    ∃ G y, Opened d.root G ∧ d.root = G y ∧
      ((∃ t, ∀ z : Elem, z.name.expanded = y.name.expanded → ∀ v, c.read code types dbg ty ({ d with root := G z } : Doc).input = .ok (.ok v) ↔
          ∃ w, c.read code types dbg (.text t) ({ d with root := z } : Doc).input = .ok (.ok w) ∧ v = C w) ∨
       (∃ a b x t, y.attrs = a ++ x :: b ∧ ∀ s v, c.read code types dbg ty ({ d with root := G { y with attrs := a ++ ⟨x.name, s⟩ :: b } } : Doc).input = .ok (.ok v) ↔
          ∃ w, parsed t s = some w ∧ v = C w) ∨
       ∃ env i f C0 D l m, DeclaresTypes c env ∧ (env.strct i).fields[l.length]? = some f ∧ Place C0 ∧ Place D ∧ C = (fun w => C0 (.strct (l ++ D w :: m))) ∧
          f.default = some (D (.text u)) ∧ NothingFor f y ∧
          ∀ z : Elem, z.name.expanded = y.name.expanded → ∀ v, c.read code types dbg ty ({ d with root := G z } : Doc).input = .ok (.ok v) ↔
            ∃ w, c.read code types dbg (.strct i) ({ d with root := z } : Doc).input = .ok (.ok w) ∧ v = C0 w) := by
  obtain ⟨env, hd⟩ := C65_env c code ha
  simp only [whole_read ha hap.noSkip hd ht] at h ⊢
  obtain ⟨G, y, h1, h2, h3⟩ := C111_origin dbg env ((C75_apart hd ho.variantIdents).mpr hap) ty d C hC u h
  refine ⟨G, y, h1, h2, ?_⟩
  rcases h3 with h3 | h3 | ⟨i, f, C0, D, l, m, h3⟩
  · exact .inl h3
  · exact .inr (.inl h3)
  · exact .inr (.inr ⟨env, i, f, C0, D, l, m, hd, h3⟩)

/-! ### An example -/

namespace Ex

/-- The `true` in the payload of the variant comes from the document (there is no default like it). -/
example : ∃ y, (y = (openDoc.with around (flag "true")).root ∨ ∃ c, Around c ∧ openDoc.with around (flag "true") = (openDoc.with around (flag "true")).with c y) ∧
      ((∃ t : TextTy, y.children.names = [] ∧ t.parse y.children.text = .ok (.bool true)) ∨ (∃ a ∈ y.attrs, ∃ t : TextTy, t.parse a.value = .ok (.bool true)) ∨
        ∃ i f D, f ∈ (env.strct i).fields ∧ f.default = some (D (.text (.bool true))) ∧ Place D ∧ NothingFor f y) :=
  C111_nothing_made_up true env env_ok (.strct 0) (openDoc.with around (flag "true")) _
    (.field [.text (.str "T"), .opt none, .vec [.text (.str "1")], .text (.str "7")] [] (.payload 1 (.field [] [] .here))) (.bool true) rfl

/-- The struct in the variant is what one element is, or in a default. -/
example := C111_struct true env env_ok (.strct 0) (openDoc.with around (flag "true")) _
    (.field [.text (.str "T"), .opt none, .vec [.text (.str "1")], .text (.str "7")] [] (.payload 1 .here)) [.text (.bool true)] rfl

end Ex

end SX
