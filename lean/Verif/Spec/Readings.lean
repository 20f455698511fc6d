import Verif.Spec.Config
import Verif.Spec.Frame
import Verif.Spec.Swap
/-! # Specification: readings of a text -/

namespace Chanoma

/-- A reading of texts: every character contributes something, or nothing, and the contributions stand in the order of
the characters. -/
def reading {α : Type} (g : Char → List α) (text : Str) : List α := text.flatMap g

/-- What is to be the case if a modifier is to keep a reading: a converter must put characters in the place of others
that are read alike, what is deleted must not be read, and a rule must put something in the place of what is read
alike. -/
def KeepsReading {α : Type} (g : Char → List α) : Step → Prop
  | .convert l => ∀ c, g (image l c) = g c
  | .eliminate cs => ∀ c ∈ cs, g c = []
  | .reduce c => g c = []
  | .ligature rules => ∀ r ∈ rules, reading g r.1 = reading g r.2
  | .spaces | .trim => g ' ' = []
  | .neologdn => (∀ c, g (neologdnFold c) = g c) ∧ g ' ' = [] ∧ g 'ー' = [] ∧ (∀ c ∈ tildeChars, g c = []) ∧
      ∀ a m b, voiced a m = some b → g b = g a ++ g m

/-- The values of the digits, half-width and full-width. -/
def digitOf (c : Char) : List Nat :=
  if 0x30 ≤ c.toNat ∧ c.toNat ≤ 0x39 then [c.toNat - 0x30]
  else if 0xFF10 ≤ c.toNat ∧ c.toNat ≤ 0xFF19 then [c.toNat - 0xFF10]
  else []

/-- The runs of neighbouring digits; `[]` stands for what is no digit. -/
def digitRuns : List (List Nat) → List (List Nat)
  | [] => []
  | [] :: l => digitRuns l
  | d :: [] => [d]
  | d :: [] :: l => d :: digitRuns l
  | d :: e :: l => match digitRuns (e :: l) with
    | [] => [d]
    | r :: rs => (d ++ r) :: rs

/-- The numbers of a text, each as the list of its digits. -/
def numbers (text : Str) : List (List Nat) := digitRuns (text.map digitOf)

example : numbers (c! "12, あ３4 5") = [[1, 2], [3, 4], [5]] := by decide +kernel

/-- The Latin letters, half-width and full-width, capital and small letters told apart. -/
def letterOf (c : Char) : Str :=
  if 0x41 ≤ c.toNat ∧ c.toNat ≤ 0x5A ∨ 0x61 ≤ c.toNat ∧ c.toNat ≤ 0x7A then [c]
  else if 0xFF21 ≤ c.toNat ∧ c.toNat ≤ 0xFF3A ∨ 0xFF41 ≤ c.toNat ∧ c.toNat ≤ 0xFF5A then [Char.ofNat (c.toNat - 0xFEE0)]
  else []

/-- The full-width kana for a half-width one; other characters stay. -/
def widened (c : Char) : Char :=
  if 0xFF66 ≤ c.toNat ∧ c.toNat ≤ 0xFF9D ∧ c.toNat ≠ 0xFF70 then fullKana.getD (c.toNat - 0xFF61) c else c

/-- The kana, half-width and full-width, hiragana and katakana told apart, each followed by its sound mark if it has
one; `ー` is no kana here. -/
def kanaOf (c : Char) : Str :=
  let d := widened c
  if d = '゛' ∨ d = '゜' then [d]
  else if 0x3041 ≤ d.toNat ∧ d.toNat ≤ 0x3096 ∨ 0x30A1 ≤ d.toNat ∧ d.toNat ≤ 0x30FA then
    if unvoiced d = d then [d]
    else if d ∈ c! "ぱぴぷぺぽパピプペポ" then [unvoiced d, '゜']
    else [unvoiced d, '゛']
  else []

example : reading digitOf (c! "1２あ3 ４") = [1, 2, 3, 4] ∧ reading letterOf (c! "aＢ1ｃ D") = c! "aBcD" ∧
    reading kanaOf (c! "ｱﾊ゜がぱーヲ漢") = c! "アハ゜か゛は゜ヲ" := by decide +kernel

end Chanoma
