import Verif.Spec.Ligature
/-! # Specification: rules of which no key is left -/

namespace Chanoma

/-- No key is empty, no key can start in a value, its own or another, and no value can start in a key of more than one
character. -/
def ValuesApart (rules : List (Str × Str)) : Prop :=
  ∀ r ∈ rules, r.1 ≠ [] ∧ ∀ r' ∈ rules, ¬ CanStartIn r.1 r'.2 ∧ (r.1.length = 1 ∨ ¬ CanStartIn r'.2 r.1)

end Chanoma
