import Verif.Spec.Width
import Verif.Spec.Cjk
/-! # Specification: what the example table of the repository does to a character -/

namespace Chanoma

/-- Tildes become `~`, hyphens `-`, dashes and the full-width hyphen `ー`; a square becomes the first
character of its expansion; the yen sign and the ideographic space stay; all else is as in the preset. -/
def exampleFold (c : Char) : Char :=
  if c ∈ ['∼', '∾', '〜', '〰', '～'] then '~'
  else if c ∈ hyphenVariants then '-'
  else if c ∈ choonpuVariants ∨ c = '－' then 'ー'
  else if c = '￥' ∨ c = '　' then c
  else if IsSquare c then squareHead c
  else presetFold c

end Chanoma
