import Verif.Spec.Config
import Verif.Spec.Swap
/-! # Specification: steps that do the same -/

namespace Chanoma

/-- The two steps are of the same kind and say the same, or are a converter and an eliminator that both
change nothing. -/
def SameFunction : Step → Step → Prop
  | .convert l, .convert l' => ∀ c, image l c = image l' c
  | .eliminate cs, .eliminate cs' => ∀ c, c ∈ cs ↔ c ∈ cs'
  | .convert l, .eliminate cs | .eliminate cs, .convert l => (∀ c, image l c = c) ∧ cs = []
  | .reduce c, .reduce c' => c = c'
  | .spaces, .spaces | .trim, .trim | .neologdn, .neologdn => True
  | _, _ => False

end Chanoma
