import Verif.Spec.Path
/-! # Specification: how bytes that need not be UTF-8 are shown -/

namespace Chanoma

/-- The bytes are the beginning, but not all, of the bytes of some character. -/
def CutOff (b : List UInt8) : Prop := ∃ c t, t ≠ [] ∧ strBytes [c] = b ++ t

/-- The bytes begin with the bytes of some character. -/
def StartsWithChar (b : List UInt8) : Prop := ∃ c t, b = strBytes [c] ++ t

/-- `Shown b s`: the bytes `b` are shown as `s`.  Characters are shown as they are.  Where no character
begins, a replacement character stands for the longest cut-off character there, or for one byte if there
is none. -/
inductive Shown : List UInt8 → Str → Prop
  | nil : Shown [] []
  | char (c : Char) {rest : List UInt8} {s : Str} : Shown rest s → Shown (strBytes [c] ++ rest) (c :: s)
  | bad {bad rest : List UInt8} {s : Str} : ¬ StartsWithChar (bad ++ rest) →
      (bad.length = 1 ∨ bad ≠ [] ∧ CutOff bad) →
      (∀ p t, bad ++ rest = p ++ t → CutOff p → p.length ≤ bad.length) →
      Shown rest s → Shown (bad ++ rest) ('�' :: s)

end Chanoma
