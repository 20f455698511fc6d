import Verif.Spec.Frame
import Verif.Model.Chanoma
/-! # Specifications: renaming characters -/

namespace Chanoma

/-- Some modifier of the converter mentions the character. -/
def Chanoma.Mentions (c : Chanoma) (ch : Char) : Prop := ∃ k ∈ c.modifiers, _root_.Chanoma.Mentions k ch

/-- The modifier tells ASCII letters and digits from other characters. -/
def TellsAlnum : ModifierKind → Prop
  | .dottedSpaceEliminator => True
  | .neologdn _ => True
  | _ => False

/-- A renaming of characters that keeps the characters mentioned by the converter, gives no other
character one of their names, and, if some modifier can tell, keeps ASCII letters and digits apart from the
other characters. -/
structure Renaming (c : Chanoma) (ρ : Char → Char) : Prop where
  fixed : ∀ ch, c.Mentions ch → ρ ch = ch
  apart : ∀ ch, ¬ c.Mentions ch → ¬ c.Mentions (ρ ch)
  alnum : (∃ k ∈ c.modifiers, TellsAlnum k) → ∀ ch, isAsciiAlphanumeric (ρ ch) = isAsciiAlphanumeric ch

end Chanoma
