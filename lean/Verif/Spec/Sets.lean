import Verif.Spec.Cjk
import Verif.Spec.Width
/-! # Specification: the predefined character sets by code points -/

namespace Chanoma

/-- Full-width digits. -/
def IsWideDigit (c : Char) : Prop := 0xFF10 ≤ c.toNat ∧ c.toNat ≤ 0xFF19

/-- Full-width Latin letters. -/
def IsWideLetter (c : Char) : Prop :=
  0xFF21 ≤ c.toNat ∧ c.toNat ≤ 0xFF3A ∨ 0xFF41 ≤ c.toNat ∧ c.toNat ≤ 0xFF5A

/-- Half-width kana and Japanese punctuation (without the prolonged sound mark U+FF70), and the
ideographic space. -/
def IsNarrowKana (c : Char) : Prop :=
  0xFF61 ≤ c.toNat ∧ c.toNat ≤ 0xFF9D ∧ c.toNat ≠ 0xFF70 ∨ c = '　'

/-- Full-width ASCII symbols (without `＂`, `＇` and `～`), and `”`, `’`, `〜`, `￥`. -/
def IsWideSymbol (c : Char) : Prop :=
  (0xFF01 ≤ c.toNat ∧ c.toNat ≤ 0xFF5D ∧ c.toNat ≠ 0xFF02 ∧ c.toNat ≠ 0xFF07 ∧
    ¬ IsWideDigit c ∧ ¬ IsWideLetter c) ∨ c ∈ ['”', '’', '〜', '￥']

instance (c : Char) : Decidable (IsWideDigit c) := by unfold IsWideDigit; infer_instance
instance (c : Char) : Decidable (IsWideLetter c) := by unfold IsWideLetter; infer_instance
instance (c : Char) : Decidable (IsNarrowKana c) := by unfold IsNarrowKana; infer_instance
instance (c : Char) : Decidable (IsWideSymbol c) := by unfold IsWideSymbol; infer_instance

end Chanoma
