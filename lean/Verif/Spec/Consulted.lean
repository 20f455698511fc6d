import Verif.Spec.Path
/-! # Specification: the files `load_rc` looks at -/

namespace Chanoma

/-- The paths `load_rc` may look at: the value of `CHANOMARC` if it counts, else the documented
places. -/
def Consulted (w : World) (p : OsStr) : Prop :=
  (ChanomarcSet w ∧ w.chanomarc = some p) ∨ (¬ ChanomarcSet w ∧ p ∈ rcCandidates w)

end Chanoma
