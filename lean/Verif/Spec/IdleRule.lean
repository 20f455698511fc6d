import Verif.Spec.Swap
import Verif.Spec.Settled
/-! # Specification: ligature rules that are superfluous beside another modifier -/

namespace Chanoma

/-- The condition under which a key never stands in what the modifier makes. -/
def NeverMade : Step → Str → Prop
  | .convert l, k => ∃ c ∈ k, ∀ d, image l d ≠ c
  | .eliminate cs, k => ∃ c ∈ k, c ∈ cs
  | .reduce c, k => [c, c] <:+: k
  | .spaces, k => ¬ SpacesOk (c! "1" ++ k ++ c! "1")
  | .neologdn, k => ¬ Settled (c! "1" ++ k ++ c! "1")
  | .trim, _ | .ligature _, _ => False

end Chanoma
