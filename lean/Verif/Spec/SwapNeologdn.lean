import Verif.Spec.Swap
/-! # Specification: which modifiers may be exchanged with neologdn -/

namespace Chanoma

/-- A character that neologdn neither replaces nor deletes by itself. -/
def KeptChar (c : Char) : Prop := neologdnFold c = c ∧ c ∉ tildeChars

/-- The substitution `g` respects what neologdn distinguishes: the tildes that it deletes, its
foldings, spaces, prolonged sound marks, ASCII alphanumerics, and the compositions. -/
def Respects (g : Char → Char) : Prop :=
  (∀ c, neologdnFold (g c) ∈ tildeChars ↔ neologdnFold c ∈ tildeChars) ∧
  (∀ c, neologdnFold c ∉ tildeChars → neologdnFold (g c) = g (neologdnFold c)) ∧
  (∀ c, KeptChar c →
    (g c = ' ' ↔ c = ' ') ∧ (g c = 'ー' ↔ c = 'ー') ∧ (IsAlnum (some (g c)) ↔ IsAlnum (some c))) ∧
  ∀ a m, KeptChar a → KeptChar m → voiced (g a) (g m) = (voiced a m).map g

/-- The condition under which an eliminator that deletes something may be exchanged with neologdn:
deletion goes along with the foldings; the space, the prolonged sound mark and everything that takes
part in compositions are deleted; and all ASCII alphanumerics or all spaces. -/
def DeletesEnough (cs : List Char) : Prop :=
  (∀ c, neologdnFold c ≠ ' ' → neologdnFold c ∉ tildeChars → (neologdnFold c ∈ cs ↔ c ∈ cs)) ∧
  ' ' ∈ cs ∧ 'ー' ∈ cs ∧ (∀ a m v, voiced a m = some v → a ∈ cs ∧ m ∈ cs ∧ v ∈ cs) ∧
  ((∀ c, IsAlnum (some c) → c ∈ cs) ∨ ∀ c, neologdnFold c = ' ' → c ∈ cs)

/-- The condition under which a modifier other than a ligature translator may be exchanged with
neologdn. -/
def MaySwapNeologdn : Step → Prop
  | .trim | .neologdn => True
  | .spaces | .ligature _ => False
  | .reduce c => neologdnFold c = ' ' ∨ neologdnFold c ∈ tildeChars ∨ neologdnFold c = 'ー' ∧ c ≠ 'ー'
  | .eliminate cs => cs = [] ∨ DeletesEnough cs
  | .convert l => Respects (image l)

end Chanoma
