import Verif.Spec.Again
/-! # Specification: a rule that is applied again -/

namespace Chanoma

/-- A normaliser with one ligature rule only. -/
def oneRule (k v : Str) : Chanoma := ⟨[.ligatureTranslator ⟨[(k, v)]⟩]⟩

end Chanoma
