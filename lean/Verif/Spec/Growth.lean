import Verif.Model.Chanoma
/-! # Specifications: how much longer a text can get -/

namespace Chanoma

/-- Numerator and denominator of the factor by which a ligature rule can lengthen a text: the longer of key
and value over the key; a rule with an empty key puts its value before every character and at the end. -/
def ruleFactor (r : Str × Str) : Nat × Nat :=
  if r.1 = [] then (r.2.length + 1, 1) else (max r.1.length r.2.length, r.1.length)

/-- The factor of a modifier: only ligature translators lengthen texts. -/
def ModifierKind.factor : ModifierKind → Nat × Nat
  | .ligatureTranslator x =>
    x.map.foldr (fun r n => ((ruleFactor r).1 * n.1, (ruleFactor r).2 * n.2)) (1, 1)
  | _ => (1, 1)

/-- The factor of a converter. -/
def Chanoma.factor (c : Chanoma) : Nat × Nat :=
  c.modifiers.foldr (fun m n => (m.factor.1 * n.1, m.factor.2 * n.2)) (1, 1)

example : (Chanoma.mk [.ligatureTranslator ⟨[(c! "ab", c! "cdcd"), (c! "abc", [])]⟩]).factor = (12, 6) := by decide

end Chanoma
