import Verif.Spec.Again
/-! # Specification: pipelines whose rules shorten -/

namespace Chanoma

/-- If the modifier is a ligature translator, every rule puts something shorter in place of its key. -/
def ModifierKind.Shortens : ModifierKind → Prop
  | .ligatureTranslator x => ∀ r ∈ x.map, r.2.length < r.1.length
  | _ => True

end Chanoma
