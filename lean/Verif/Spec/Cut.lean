import Verif.Spec.Config
/-! # Specification: at which places a text can be cut -/

namespace Chanoma

/-- Between the two pieces stand one or more spaces with an ASCII alphanumeric on both sides. -/
def JoinedBySpace (a b : Str) : Prop :=
  IsAlnum (a.filter (· ≠ ' ')).getLast? ∧ IsAlnum (b.filter (· ≠ ' ')).head? ∧
    (a.getLast? = some ' ' ∨ b.head? = some ' ')

/-- The condition under which the modifier treats the text `a ++ b` as it treats `a` and `b`. -/
def CutAt (a b : Str) : Step → Prop
  | .convert _ | .eliminate _ => True
  | .reduce c => ¬ (a.getLast? = some c ∧ b.head? = some c)
  | .spaces => ¬ JoinedBySpace a b
  | .trim => (∀ c ∈ a, c = ' ') ∨ (∀ c ∈ b, c = ' ') ∨ a.getLast? ≠ some ' ' ∧ b.head? ≠ some ' '
  | .neologdn =>
    ¬ ((a.map neologdnFold).getLast? = some 'ー' ∧ (b.map neologdnFold).head? = some 'ー') ∧
    ¬ JoinedBySpace (a.map neologdnFold) (b.map neologdnFold) ∧
    ∀ x y, (neologdnSpec a).getLast? = some x → (neologdnSpec b).head? = some y → voiced x y = none
  | .ligature _ => False

end Chanoma
