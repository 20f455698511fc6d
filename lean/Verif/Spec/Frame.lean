import Verif.Spec.Ligature
import Verif.Model.Modifier
/-! # Specifications: what a modifier has to do with a character -/

namespace Chanoma

/-- The modifier mentions the character: it may take it away, put it in or replace it. -/
def Mentions : ModifierKind → Char → Prop
  | .characterConverter x, c => ∃ e ∈ x.itemsMap, c = e.1 ∨ c = e.2
  | .characterEliminator x, c => c ∈ x.chars
  | .consecutiveCharacterReducer x, c => c = x.c
  | .dottedSpaceEliminator, c => c = ' '
  | .ligatureTranslator x, c => ∃ e ∈ x.map, c ∈ e.1 ∨ c ∈ e.2
  | .trim, c => c = ' '
  | .neologdn _, c => (∃ d, d ≠ neologdnFold d ∧ (c = d ∨ c = neologdnFold d)) ∨ c = ' ' ∨ c = 'ー' ∨
      c ∈ tildeChars ∨ ∃ a m b, voiced a m = some b ∧ (c = a ∨ c = m ∨ c = b)

/-- The kana without its sound mark: `か` for `が`, `は` for `ば` and `ぱ`; other characters stay. -/
def unvoiced (c : Char) : Char :=
  if c ∈ c! "がぎぐげござじずぜぞだぢづでどばびぶべぼガギグゲゴザジズゼゾダヂヅデドバビブベボ" then
    Char.ofNat (c.toNat - 1)
  else if c ∈ c! "ぱぴぷぺぽパピプペポ" then Char.ofNat (c.toNat - 2)
  else if c = 'ゔ' then 'う'
  else if c = 'ヴ' then 'ウ'
  else c

/-- What is left of a text without spaces, tildes, `ー` and sound marks. -/
def skeleton (t : Str) : Str :=
  (t.filter fun c => c ∉ ' ' :: 'ー' :: '゛' :: '゜' :: tildeChars).map unvoiced

/-- CJK unified ideographs U+4E00..U+9FFF. -/
def isKanji (c : Char) : Bool := decide (0x4E00 ≤ c.toNat ∧ c.toNat ≤ 0x9FFF)

example : skeleton (c! "か゛っこ〜う が ハ゜ー") = c! "かっこうかハ" := by decide +kernel

end Chanoma
