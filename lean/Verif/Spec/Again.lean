import Verif.Model.Chanoma
import Verif.Spec.Ligature
/-! # Specification: normalising again and again -/

namespace Chanoma

/-- What has become of a text when it has been normalised `n` times, each time with hash seeds of its
own. -/
def Chanoma.again (c : Chanoma) (seeds : Nat → Nat → Oracle) (text : Str) : Nat → Outcome Str
  | 0 => .ok text
  | n + 1 => c.again seeds text n >>= c.normalize (seeds n) false

/-- The character that a modifier writes for another one, unless it deletes or composes it. -/
def ModifierKind.onChar : ModifierKind → Char → Char
  | .characterConverter x, ch => (x.itemsMap.get? ch).getD ch
  | .neologdn _, ch => neologdnFold ch
  | _, ch => ch

/-- The same for a pipeline. -/
def Chanoma.onChar (c : Chanoma) (ch : Char) : Char := c.modifiers.foldl (fun ch m => m.onChar ch) ch

/-- No character comes back to itself but those that stay. -/
def NoCycle (g : Char → Char) : Prop := ∀ ch n, 0 < n → Nat.repeat g n ch = ch → g ch = ch

/-- The modifier is a character eliminator, a reducer, the dotted-space rule or trim. -/
def ModifierKind.Deletes : ModifierKind → Prop
  | .characterEliminator _ | .consecutiveCharacterReducer _ | .dottedSpaceEliminator | .trim => True
  | _ => False

end Chanoma
