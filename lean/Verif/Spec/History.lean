import Verif.Spec.TableOps
/-! # Specification: what the last call about an item did -/

namespace Chanoma

/-- The call adds this item. -/
def TableOp.Adds (x : Item) : TableOp → Prop
  | .add _ c => x ∈ c
  | .remove _ => False
  | .preset _ => PresetItem x

/-- The call removes this item. -/
def TableOp.Removes (x : Item) : TableOp → Prop
  | .remove c => x ∈ c
  | _ => False

/-- The last call about this item adds it. -/
def LastAdds (ops : List TableOp) (x : Item) : Prop :=
  ∃ before op after, ops = before ++ op :: after ∧ op.Adds x ∧ ∀ o ∈ after, ¬ o.Removes x

/-- The last call about this item removes it. -/
def LastRemoves (ops : List TableOp) (x : Item) : Prop :=
  ∃ before op after, ops = before ++ op :: after ∧ op.Removes x ∧ ∀ o ∈ after, ¬ o.Adds x

end Chanoma
