import Verif.Model.Position
/-! # Moving a position: what C91 is stated with -/

namespace Chanoma

/-- The same position further on: `index` grows by the first number and `utf8_index` by the second. -/
def Position.moved (i u : Nat) (p : Position) : Position :=
  { p with index := p.index + i, utf8Index := p.utf8Index + u }

end Chanoma
