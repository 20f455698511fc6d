import Verif.Spec.Swap
/-! # Specification: modifiers that are superfluous beside another -/

namespace Chanoma

/-- Neologdn can leave the character as it is. -/
def Kept (c : Char) : Prop := neologdnFold c = c ∧ c ∉ tildeChars

/-- The condition under which the second modifier is superfluous: it finds nothing to do after the first. -/
def IdleAfter : Step → Step → Prop
  | .convert l, .convert l' => ∀ c, image l' (image l c) = image l c
  | .convert l, .eliminate cs' => ∀ c, image l c ∉ cs'
  | .convert l, .reduce c' => ∀ c, image l c ≠ c'
  | .convert l, .spaces | .convert l, .trim => ∀ c, image l c ≠ ' '
  | .convert l, .neologdn => (∀ c, Kept (image l c) ∧ image l c ≠ ' ' ∧ image l c ≠ 'ー') ∧
      ∀ a m, voiced (image l a) (image l m) = none
  | .eliminate cs, .convert l' => ∀ c, c ∉ cs → image l' c = c
  | .eliminate cs, .eliminate cs' => ∀ c ∈ cs', c ∈ cs
  | .eliminate cs, .reduce c' => c' ∈ cs
  | .eliminate cs, .spaces | .eliminate cs, .trim => ' ' ∈ cs
  | .eliminate cs, .neologdn => (∀ c, c ∉ cs → Kept c ∧ c ≠ ' ' ∧ c ≠ 'ー') ∧
      ∀ a m, a ∉ cs → m ∉ cs → voiced a m = none
  | .neologdn, .convert l' => ∀ c, Kept c → image l' c = c
  | .neologdn, .eliminate cs' => ∀ c ∈ cs', ¬ Kept c
  | .neologdn, .reduce c' => c' = ' ' ∨ ¬ Kept c'
  | .reduce _, .convert l' | .spaces, .convert l' | .trim, .convert l' => ∀ c, image l' c = c
  | .reduce _, .eliminate cs' | .spaces, .eliminate cs' | .trim, .eliminate cs' => cs' = []
  | .reduce c, .reduce c' => c = c'
  | .spaces, .reduce c' => c' = ' '
  | .spaces, .spaces | .neologdn, .spaces | .spaces, .trim | .trim, .trim | .neologdn, .trim => True
  | _, _ => False

/-- The condition under which the first modifier is superfluous: the second makes up for it. -/
def IdleBefore : Step → Step → Prop
  | .convert l, .convert l' => ∀ c, image l' (image l c) = image l' c
  | .convert l, .eliminate cs' => ∀ c, image l c = c ∨ image l c ∈ cs' ∧ c ∈ cs'
  | .convert l, .reduce _ | .convert l, .spaces | .convert l, .trim => ∀ c, image l c = c
  | .convert l, .neologdn => ∀ c, neologdnFold (image l c) = neologdnFold c ∨
      neologdnFold (image l c) ∈ tildeChars ∧ neologdnFold c ∈ tildeChars
  | .eliminate cs, .eliminate cs' => ∀ c ∈ cs, c ∈ cs'
  | .eliminate cs, .convert _ | .eliminate cs, .reduce _ | .eliminate cs, .spaces | .eliminate cs, .trim
  | .eliminate cs, .neologdn => cs = []
  | .reduce c, .eliminate cs' => c ∈ cs'
  | .reduce c, .reduce c' => c = c'
  | .reduce c, .spaces => c = ' '
  | .reduce c, .neologdn => neologdnFold c = ' ' ∨ neologdnFold c = 'ー' ∨ neologdnFold c ∈ tildeChars
  | .spaces, .eliminate cs' | .trim, .eliminate cs' => ' ' ∈ cs'
  | .neologdn, .eliminate cs' => (∀ c, neologdnFold c = c ∨ neologdnFold c ∈ cs' ∧ c ∈ cs') ∧ ' ' ∈ cs' ∧ 'ー' ∈ cs' ∧
      (∀ c ∈ tildeChars, c ∈ cs') ∧ ∀ a m b, voiced a m = some b → a ∈ cs' ∧ m ∈ cs' ∧ b ∈ cs'
  | .spaces, .spaces | .trim, .spaces | .trim, .trim | .trim, .neologdn => True
  | _, _ => False

end Chanoma
