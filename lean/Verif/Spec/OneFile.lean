import Verif.Spec.Config
import Verif.Spec.Path
/-! # Specification: a converter in one YAML file -/

namespace Chanoma

/-- The modifier is a character converter or a character eliminator. -/
def ModifierKind.CharByChar : ModifierKind → Prop
  | .characterConverter _ | .characterEliminator _ => True
  | _ => False

/-- There is a YAML file at `path` that describes the modifiers `steps` and the table `items`. -/
def FileDescribes (w : World) (path : OsStr) (steps : List Step) (items : List Item) : Prop :=
  (HasExt path (p! "yaml") ∨ HasExt path (p! "yml")) ∧ ∃ bytes data, w.entry path = some (.file bytes) ∧
    w.parseYaml bytes = some data ∧ DocSteps data steps ∧ DocItems data items

end Chanoma
