import Verif.Model.Chanoma
/-! # Specifications: how much of a text a modifier has to remember -/

namespace Chanoma

/-- A bound on the number of different situations a modifier can be in while it reads a text from
left to right. -/
def ModifierKind.memory : ModifierKind → Nat
  | .characterConverter _ => 1
  | .characterEliminator _ => 1
  | .consecutiveCharacterReducer _ => 2
  | .dottedSpaceEliminator => 4
  | .trim => 4
  | .ligatureTranslator x => x.map.foldr (fun e n => max 1 e.1.length * n) 1
  | .neologdn _ => 344

/-- The product over all modifiers of the converter. -/
def Chanoma.memory (c : Chanoma) : Nat := c.modifiers.foldr (fun m n => m.memory * n) 1

example : (Chanoma.mk [.trim, .ligatureTranslator ⟨[(c! "ab", c! "c"), (c! "abc", [])]⟩]).memory = 24 := by decide

end Chanoma
