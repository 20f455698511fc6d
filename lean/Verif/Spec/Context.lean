import Verif.Spec.Config
import Verif.Model.Modifier
/-! # Specification: one text in the place of another -/

namespace Chanoma

/-- Between `u` and `w` it makes no difference whether `a` or `b` stands there. -/
def SameIn (m : ModifierKind) (a b u w : Str) : Prop :=
  ∀ σ τ, ∃ o, m.modify σ (u ++ a ++ w) = .ok o ∧ m.modify τ (u ++ b ++ w) = .ok o

/-- The surroundings that have to be tried in order to know all of them. -/
def deciding : Step → List (Str × Str)
  | .convert _ | .eliminate _ | .reduce _ => [([], [])]
  | .trim => [(c! "x", c! "x")]
  | .spaces => [(c! "1", c! "1")]
  | .neologdn => [(c! "1", c! "1"), (c! "1 ", c! " 1"), (c! "ー", []), ([], c! "ー")]
  | .ligature _ => []

end Chanoma
