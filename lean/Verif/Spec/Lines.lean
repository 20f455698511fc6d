import Verif.Model.Modifier
import Verif.Spec.Ligature
/-! # Specifications: texts cut into lines, and the sign `＝` -/

namespace Chanoma

/-- A character at which neologdn can cut a text: it is not changed, deleted, composed or joined
with anything, and does not keep a space next to it. -/
def CutsNeologdn (sep : Char) : Prop :=
  neologdnFold sep = sep ∧ sep ∉ tildeChars ∧ sep ≠ ' ' ∧ sep ≠ 'ー' ∧ ¬ IsAlnum (some sep) ∧
    ∀ a, voiced sep a = none ∧ voiced a sep = none

/-- A modifier that treats the pieces of a text between the characters `sep` separately: it does
not convert, delete or reduce `sep`, no ligature contains it, and it is not `trim`, which looks at
the ends of the whole text. -/
def LineSafe (sep : Char) : ModifierKind → Prop
  | .characterConverter x => x.itemsMap.get? sep = none
  | .characterEliminator x => sep ∉ x.chars
  | .consecutiveCharacterReducer x => x.c ≠ sep
  | .dottedSpaceEliminator => sep ≠ ' ' ∧ ¬ IsAlnum (some sep)
  | .ligatureTranslator x => ∀ r ∈ x.map, sep ∉ r.1
  | .trim => False
  | .neologdn x => CutsNeologdn sep ∧ ∃ σ, Neologdn.new σ = .ok x

/-- Replace `＝` by `=`. -/
def foldEqual (c : Char) : Char := if c = '＝' then '=' else c

end Chanoma
