import Verif.Spec.Again
import Verif.Spec.Ligature
/-! # Specification: weights of characters under which modifiers make texts lighter -/

namespace Chanoma

/-- The weight of a text: the sum of the weights of its characters. -/
def weight (w : Char → Nat) (t : Str) : Nat := (t.map w).sum

example : weight (fun c => if c = '髙' then 2 else 1) (c! "髙い山") = 4 := by decide

/-- What the modifier writes is lighter than what it is written for: a character another one is converted to, the value
of a rule compared with its key, and, for neologdn, the character it folds a character to, and the voiced letter
compared with the letter and its mark. -/
def ModifierKind.Lightens (w : Char → Nat) : ModifierKind → Prop
  | .characterConverter x => ∀ c d, x.itemsMap.get? c = some d → d = c ∨ w d < w c
  | .ligatureTranslator x => ∀ r ∈ x.map, weight w r.2 < weight w r.1
  | .neologdn _ => (∀ c, neologdnFold c = c ∨ w (neologdnFold c) < w c) ∧ ∀ a m b, voiced a m = some b → w b < w a + w m
  | _ => True

end Chanoma
