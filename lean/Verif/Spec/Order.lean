import Verif.Model.Corr
/-! # Specification: order of strings and items by code points -/

namespace Chanoma

/-- Lexicographic order of strings by code point. -/
inductive LexLe : Str → Str → Prop
  | nil (b : Str) : LexLe [] b
  | lt {a b : Char} (as bs : Str) : a.toNat < b.toNat → LexLe (a :: as) (b :: bs)
  | cons {c : Char} {as bs : Str} : LexLe as bs → LexLe (c :: as) (c :: bs)

/-- Lexicographic order of items: first `from`, then `to`. -/
def ItemLe (a b : Item) : Prop :=
  (LexLe a.from b.from ∧ a.from ≠ b.from) ∨ (a.from = b.from ∧ LexLe a.to b.to)

/-- Strict version. -/
def ItemLt (a b : Item) : Prop := ItemLe a b ∧ a ≠ b

end Chanoma
