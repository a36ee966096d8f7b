import Verif.Props.MacroErrors
import Verif.Props.Reread

/-! # C57: text types that use `FromStr` and `Display` -/
namespace SX
open Spec

/-- `core` is `text` without XML white space around it. -/
def Spec.Stripped (text core : String) : Prop :=
  Padded text.toList core.toList ∧ (∀ c, core.toList.head? = some c → isWs c = false) ∧ (∀ c, core.toList.getLast? = some c → isWs c = false)

theorem stripped_iff (text core : String) : Stripped text core ↔ core = String.ofList (trimMatches trimSet text.toList) := by
  rw [trimSet_eq']
  have hs := trimMatches_spec isWs text.toList
  constructor
  · rintro ⟨⟨a, b, h, ha, hb⟩, hh, hl⟩
    rw [trimMatches_of isWs text.toList a core.toList b h ha hb hh hl, String.ofList_toList]
  · rintro rfl
    obtain ⟨⟨a, b, h, ha, hb⟩, hh, hl⟩ := hs
    simp only [Stripped, String.toList_ofList]
    exact ⟨⟨a, b, h, ha, hb⟩, hh, hl⟩

/-- **C57** (numbers with a fraction).  Such a type's `FromStr` gets the text without the XML white space around it, which is determined, and
its answer is the result. -/
theorem C57_float (f : String → Option Nat) (g : Nat → String) (text : String) :
    ∃ core, (∀ core', Stripped text core' ↔ core' = core) ∧
      (∀ n, (TextTy.float f g).parse text = .ok (.opaque n) ↔ f core = some n) ∧ ((TextTy.float f g).parse text = .err .std ↔ f core = none) := by
  refine ⟨_, stripped_iff text, ?_⟩
  unfold TextTy.parse
  cases h : f (String.ofList (trimMatches trimSet text.toList)) <;> simp

/-- **C57** (`mode = "std"`).  Such a type's `FromStr` gets the text normalized as declared, and its answer is the result. -/
theorem C57_std (ws : WhiteSpace) (f : String → Option Nat) (g : Nat → String) (text : String) :
    (∀ n, (TextTy.std ws f g).parse text = .ok (.opaque n) ↔ f (normText ws text) = some n) ∧
      ((TextTy.std ws f g).parse text = .err .std ↔ f (normText ws text) = none) := by
  unfold TextTy.parse
  rw [parse_normalize]
  cases h : f (normText ws text) <;> simp

/-- **C57** (from the declaration): the white space mode is the one declared. -/
theorem C57_declared (d : Decl) (ws : WhiteSpace) (f : String → Option Nat) (g : Nat → String) (text : String)
    (h : describeText d = (some (.std ws), [])) :
    kv "mode" "std" ∈ attrItems d.attrs ∧ WsIs (attrItems d.attrs) ws ∧
      ∀ n, (TextTy.std ws f g).parse text = .ok (.opaque n) ↔ f (normText ws text) = some n :=
  ⟨(C42_text_description d _ h).1, (C42_text_description d _ h).2, (C57_std ws f g text).1⟩

/-- **C57** (strings): the text itself, with all its white space, both ways. -/
theorem C57_string (text : String) :
    TextTy.string.parse text = .ok (.str text) ∧ TextTy.string.toText (.str text) = some text := ⟨by unfold TextTy.parse; rfl, by simp [TextTy.toText]⟩

/-- **C57** (round trip): if `FromStr` undoes `Display` and that adds no white space around, values come back, also with more white space
around them. -/
theorem C57_float_roundtrip (f : String → Option Nat) (g : Nat → String) (n : Nat) (text out : String) (hg : f (g n) = some n)
    (hs : Stripped (g n) (g n)) (h : (TextTy.float f g).toText (.opaque n) = some out) (hp : Padded text.toList out.toList) :
    (TextTy.float f g).parse text = .ok (.opaque n) := by
  simp only [TextTy.toText, Option.some.injEq] at h
  subst h
  obtain ⟨core, h1, h2, -⟩ := C57_float f g text
  have := (h1 (g n)).mp ⟨hp, hs.2⟩
  subst this
  exact (h2 n).mpr hg

theorem C57_std_roundtrip (ws : WhiteSpace) (f : String → Option Nat) (g : Nat → String) (n : Nat) (out : String)
    (h : (TextTy.std ws f g).toText (.opaque n) = some out) :
    (TextTy.std ws f g).parse out = .ok (.opaque n) ↔ f (normText ws (g n)) = some n := by
  simp only [TextTy.toText, Option.some.injEq] at h
  subst h
  exact (C57_std ws f g (g n)).1 n

/-- A type that reads and writes numbers. -/
def exNum : String → Option Nat := fun s => (intFromStr ⟨false, 64⟩ s.toList).map Int.toNat

example : Stripped "\n 25\t" "25" := by refine ⟨⟨['\n', ' '], ['\t'], by decide⟩, ?_, ?_⟩ <;> simp <;> decide

attribute [local semireducible] natDigits in
example : (TextTy.float exNum (fun n => intToString n)).parse "\n 25\t" = .ok (.opaque 25) := by
  have : intToString ((25 : Nat) : Int) = "25" := by rfl
  refine C57_float_roundtrip exNum _ 25 "\n 25\t" "25" (by rw [this]; rfl) ?_ (by simp only [TextTy.toText]; rw [this]) ⟨['\n', ' '], ['\t'], by decide⟩
  rw [this]
  refine ⟨⟨[], [], by decide⟩, ?_, ?_⟩ <;> simp <;> decide

/-- With `collapse`, there is no white space left around the number. -/
example : (TextTy.std .collapse exNum (fun n => intToString n)).parse "\n 25\t" = .ok (.opaque 25) := by
  rw [(C57_std _ _ _ _).1]
  have : normText .collapse "\n 25\t" = "25" := by
    simp [normText, normalized, collapseWs, words_cons_ws, words_cons_not, words_nil, isWs, List.intercalate]
  rw [this]; rfl

/-- A declaration with `std` and a white space mode. -/
example (f : String → Option Nat) (g : Nat → String) (text : String) :=
  C57_declared ⟨"N", ExM.attrs [kv "mode" "std", kv "whitespace" "collapse"], .unnamed⟩ .collapse f g text rfl

end SX
