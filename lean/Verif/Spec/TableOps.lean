import Verif.Model.Table
/-! # Specification: tables as sets of items -/

namespace Chanoma

/-- A call on a `TableBuilder`.  Each call that uses a hash set has its own iteration order. -/
inductive TableOp where
  | add (σ : Oracle) (corr : List Item)
  | remove (corr : List Item)
  | preset (σ : Oracle)

/-- The call performed by the library. -/
def TableOp.run (b : TableBuilder) : TableOp → TableBuilder
  | .add σ c => b.addCorr σ c
  | .remove c => b.removeCorr c
  | .preset σ => b.preset σ

/-- Does the call add items? -/
def TableOp.IsAdd : TableOp → Prop
  | .remove _ => False
  | _ => True

/-- The items of the preset: the constants of the four character sets. -/
def PresetItem (x : Item) : Prop :=
  x ∈ digitsConsts ∨ x ∈ punctuationsConsts ∨ x ∈ alphabetsConsts ∨ x ∈ kanasConsts

/-- The call as an operation on sets of items: union or difference. -/
def TableOp.onSet (S : Item → Prop) : TableOp → (Item → Prop)
  | .add _ c => fun x => S x ∨ x ∈ c
  | .remove c => fun x => S x ∧ x ∉ c
  | .preset _ => fun x => S x ∨ PresetItem x

end Chanoma
