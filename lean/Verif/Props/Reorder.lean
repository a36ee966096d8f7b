import Verif.Proof.Reorder
import Verif.Props.Derive

/-
C46: what is read depends on the declared content only.
-/
namespace SX
open Spec

/-- **C46.** Documents whose roots have the same content as far as the declarations care, at every depth, are read as the same
value, or both are not read. -/
theorem C46_same_content (dbg dbg' : Bool) (env : Env) (hok : EnvOk env) (ty : Ty) (d d' : Doc) (h : SameContent env ty d.root d'.root)
    (v : Val) : readTy dbg env ty d.input = .ok (.ok v) ↔ readTy dbg' env ty d'.input = .ok (.ok v) := by
  rw [C18_value dbg env hok, C18_value dbg' env hok, sameContent_value env hok h]

namespace Ex

def bDoc (children : Forest) (attrs : List XAttr) : Doc := docOf attrs children

/-- `<r id="7"><u:title>T</u:title><b><n>1</n></b></r>` -/
def order1 : Doc := bDoc (leaf (qp "u" "title") "T" (.elem (q "b") [] [] (p 1) (leaf (q "n") "1" .nil) (p 3) .nil)) [{ name := q "id", value := "7" }]
/-- `<r x="" id="7"><b><zzz/><n>1</n></b><!-- --><v:title>T</v:title></r>` -/
def order2 : Doc := bDoc (.elem (q "b") [] [] (p 1) (empt (q "zzz") (leaf (q "n") "1" .nil)) (p 3) (.misc (.comment " ") (p 4)
  (leaf (qp "v" "title") "T" .nil))) [{ name := q "x", value := "" }, { name := q "id", value := "7" }]

theorem order_same : SameContent env (.strct 0) order1.root order2.root := by
  refine .single (by decide) ?_ ?_ ?_ ?_ ?_
  · intro f o t hf hk
    simp only [env, recFields, List.mem_cons, List.not_mem_nil, or_false] at hf
    rcases hf with rfl | rfl | rfl | rfl | rfl <;> simp at hk
    decide
  · intro f s hf hk
    simp only [env, recFields, List.mem_cons, List.not_mem_nil, or_false] at hf
    rcases hf with rfl | rfl | rfl | rfl | rfl <;> simp at hk <;> rfl
  · intro f s p u v hf hk hu hv
    simp only [env, recFields, List.mem_cons, List.not_mem_nil, or_false] at hf
    rcases hf with rfl | rfl | rfl | rfl | rfl <;> simp at hk <;> subst hk
    · rcases p with _ | p
      · cases hu; cases hv
        exact .text rfl rfl rfl
      · cases hu
    · cases hu
    · cases hu
  · intro e w he hw _
    simp [env, recFields, flatTypes] at he
    subst he
    simp only [env, choice, List.mem_cons, List.not_mem_nil, or_false] at hw
    rcases hw with rfl | rfl | rfl
    · exact ⟨fun _ => rfl, fun _ => rfl⟩
    · rfl
    · rfl
  · intro e w s p u v he hw _ hs hu hv
    simp [env, recFields, flatTypes] at he
    subst he
    simp only [env, choice, List.mem_cons, List.not_mem_nil, or_false] at hw
    rcases hw with rfl | rfl | rfl <;> simp at hs <;> subst hs
    · rcases p with _ | p
      · cases hu; cases hv
        refine .single (by decide) ?_ ?_ ?_ ?_ ?_
        · intro f o t hf hk
          simp only [env, subFields, List.mem_cons, List.not_mem_nil, or_false] at hf
          subst hf; simp at hk
        · intro f s hf hk
          simp only [env, subFields, List.mem_cons, List.not_mem_nil, or_false] at hf
          subst hf; rfl
        · intro f s p u v hf hk hu hv
          simp only [env, subFields, List.mem_cons, List.not_mem_nil, or_false] at hf
          subst hf; simp at hk; subst hk
          rcases p with _ | p
          · cases hu; cases hv
            exact .text rfl rfl rfl
          · cases hu
        · intro e w he
          simp [env, subFields, flatTypes] at he
        · intro e w s p u v he
          simp [env, subFields, flatTypes] at he
      · cases hu
    · cases hu

end Ex

example : readTy true Ex.env (.strct 0) Ex.order1.input = .ok (.ok (.strct [.text (.str "T"), .opt none, .vec [], .text (.str "7"),
      .enm 1 (some (.strct [.text (.bool true)]))])) ∧
    readTy false Ex.env (.strct 0) Ex.order2.input = .ok (.ok (.strct [.text (.str "T"), .opt none, .vec [], .text (.str "7"),
      .enm 1 (some (.strct [.text (.bool true)]))])) :=
  ⟨rfl, (C46_same_content true false Ex.env Ex.env_ok (.strct 0) _ _ Ex.order_same _).mp rfl⟩

/-- With several flattened fields: `<x/><zzz/><a/>` and `<x/><a/>`. -/
example : SameContent Ex.env (.strct 2) (Ex.docOf [] (Ex.empt (Ex.q "x") (Ex.empt (Ex.q "zzz") (Ex.empt (Ex.q "a") .nil)))).root
    (Ex.docOf [] (Ex.empt (Ex.q "x") (Ex.empt (Ex.q "a") .nil))).root := by
  refine .several ?_ ?_ ?_ rfl ?_
  · intro f o t hf hk
    simp only [Ex.env, Ex.twoFields, List.mem_cons, List.not_mem_nil, or_false] at hf
    rcases hf with rfl | rfl <;> simp at hk
  · intro f s hf hk
    simp only [Ex.env, Ex.twoFields, List.mem_cons, List.not_mem_nil, or_false] at hf
    rcases hf with rfl | rfl <;> simp at hk
  · intro f s p u v hf hk
    simp only [Ex.env, Ex.twoFields, List.mem_cons, List.not_mem_nil, or_false] at hf
    rcases hf with rfl | rfl <;> simp at hk
  · intro e w s p u v he hw hs hu hv hn
    simp [Ex.env, Ex.twoFields, flatTypes] at he
    rcases he with rfl | rfl
    · simp only [Ex.env, Ex.choice, List.mem_cons, List.not_mem_nil, or_false] at hw
      rcases p with _ | _ | p
      · cases hu
        rcases hw with rfl | rfl | rfl <;> simp at hs <;> exact absurd hn (by decide)
      · cases hu
        rcases hw with rfl | rfl | rfl <;> simp at hs <;> exact absurd hn (by decide)
      · cases hu
    · simp only [Ex.env, Ex.other, List.mem_cons, List.not_mem_nil, or_false] at hw
      rcases hw with rfl | rfl <;> simp at hs

/-- **C21**, at every depth, for structs with at most one flattened field (with more, see `C21_two_flattened_counterexample`): the
order of attributes and differently named children does not matter, whatever the types. -/
theorem C21_shuffled_partial (dbg dbg' : Bool) (env : Env) (hok : EnvOk env) (hone : ∀ i, (flatTypes (env.strct i).fields).length ≤ 1)
    (ty : Ty) (d d' : Doc) (h : Shuffled d.root d'.root) (v : Val) :
    readTy dbg env ty d.input = .ok (.ok v) ↔ readTy dbg' env ty d'.input = .ok (.ok v) :=
  C46_same_content dbg dbg' env hok ty d d' (shuffled_same env hone h ty) v

namespace Ex

/-- If no two children have the same name, corresponding ones are found by name. -/
theorem shuffled_of {x y : Elem} (ha : x.attrs = y.attrs) (hx : x.children.children ≠ [])
    (hc : ∀ n, (x.children.childrenNamed n).length = (y.children.childrenNamed n).length)
    (h : ∀ u ∈ x.children.children, ∀ v ∈ y.children.children, u.name.expanded = v.name.expanded → Shuffled u v) : Shuffled x y := by
  refine .mk (fun n => by rw [ha]) (fun h => absurd h hx) hc ?_
  intro n p u v hu hv
  have hu := List.mem_filter.mp (List.mem_of_getElem? hu)
  have hv := List.mem_filter.mp (List.mem_of_getElem? hv)
  exact h u hu.1 v hv.1 ((eq_of_beq hu.2).trans (eq_of_beq hv.2).symm)

theorem shuffled_leaf {n : QName} {s : String} {a ns pos e c} :
    Shuffled { name := n, attrs := a, ns := ns, pos := pos, endPos := e, children := .chars s false c .nil }
      { name := n, attrs := a, ns := ns, pos := pos, endPos := e, children := .chars s false c .nil } :=
  .mk (fun _ => rfl) (fun _ => rfl) (fun _ => rfl) fun n p u v hu => by cases hu

/-- `<b><n>1</n><m>2</m></b><zzz>x</zzz>` and `<zzz>x</zzz><b><m>2</m><n>1</n></b>`. -/
def shuffled1 : Doc := docOf [] (.elem (q "b") [] [] (p 1) (leaf (q "n") "1" (leaf (q "m") "2" .nil)) (p 3) (leaf (q "zzz") "x" .nil))
def shuffled2 : Doc := docOf [] (leaf (q "zzz") "x" (.elem (q "b") [] [] (p 1) (leaf (q "m") "2" (leaf (q "n") "1" .nil)) (p 3) .nil))

theorem shuffled : Shuffled shuffled1.root shuffled2.root := by
  have hcount : ∀ (n : EName) (a b : Elem), ([a, b].filter fun x => x.name.expanded == n).length =
      ([b, a].filter fun x => x.name.expanded == n).length := by
    intro n a b
    simp only [List.filter_cons, List.filter_nil]
    split <;> split <;> rfl
  refine shuffled_of rfl (by simp [shuffled1, docOf, leaf, Forest.children]) (fun n => ?_) ?_
  · simp only [Forest.childrenNamed, shuffled1, shuffled2, docOf, leaf, Forest.children, List.filter_cons, List.filter_nil]
    split <;> split <;> rfl
  · intro u hu v hv hn
    simp only [shuffled1, shuffled2, docOf, leaf, Forest.children, List.mem_cons, List.not_mem_nil, or_false] at hu hv
    rcases hu with rfl | rfl <;> rcases hv with rfl | rfl
    · exact absurd hn (by decide)
    · refine shuffled_of rfl (by simp [Forest.children]) (fun n => hcount n _ _) ?_
      intro u hu v hv hn
      simp only [Forest.children, List.mem_cons, List.not_mem_nil, or_false] at hu hv
      rcases hu with rfl | rfl <;> rcases hv with rfl | rfl
      · exact absurd hn (by decide)
      · exact shuffled_leaf
      · exact shuffled_leaf
      · exact absurd hn (by decide)
    · exact shuffled_leaf
    · exact absurd hn (by decide)

/-- `Ex.env` without the struct with two flattened fields. -/
def env1 : Env := { strct := fun i => env.strct (if i = 2 then 9 else i), enm := env.enm }

theorem env1_one : ∀ i, (flatTypes (env1.strct i).fields).length ≤ 1 := by
  intro i
  simp only [env1, env]
  split
  · decide
  · decide
  · rename_i h
    split at h <;> simp_all
  · decide

theorem env1_ok : EnvOk env1 where
  elems i := env_ok.elems _
  attrs i := env_ok.attrs _
  noText i := env_ok.noText _
  variants := env_ok.variants
  noneFirst := env_ok.noneFirst
  noSkip := env_ok.noSkip

end Ex

/-- The hypotheses are met: reordered at two levels. -/
example : readTy true Ex.env1 (.enm 0) Ex.shuffled1.input = .ok (.ok (.enm 1 (some (.strct [.text (.bool true)])))) ∧
    readTy true Ex.env1 (.enm 0) Ex.shuffled2.input = .ok (.ok (.enm 1 (some (.strct [.text (.bool true)])))) :=
  ⟨rfl, (C21_shuffled_partial true true Ex.env1 Ex.env1_ok Ex.env1_one (.enm 0) _ _ Ex.shuffled _).mp rfl⟩

end SX
