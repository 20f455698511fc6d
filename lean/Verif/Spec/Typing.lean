import Verif.Model.Chanoma
/-! # Specifications: a text that is still being written, and texts read backwards -/

namespace Chanoma

/-- All but the last `d` characters of a text. -/
def butLast (d : Nat) (t : Str) : Str := t.take (t.length - d)

/-- A modifier that looks back: it can change what it made of a text when the text goes on. -/
def ModifierKind.LooksBack : ModifierKind → Prop
  | .ligatureTranslator _ | .neologdn _ => True
  | _ => False

/-- Where two occurrences of the key overlap (in `s`), it does not matter which of the two is replaced. -/
def OverlapsAgree (k v : Str) : Prop := ∀ s x y, s ≠ [] → k = s ++ x → k = y ++ s → v ++ x = y ++ v

/-- The rule for texts read backwards. -/
def backwards (r : Str × Str) : Str × Str := (r.1.reverse, r.2.reverse)

example : butLast 2 (c! "abcde") = c! "abc" ∧ butLast 7 (c! "abcde") = [] := by decide

end Chanoma
