import Verif.Model.Rust
/-! # Specification: width folding by code points -/

namespace Chanoma

/-- Full-width forms, in code point order, of the half-width characters U+FF61..U+FF9D. -/
def fullKana : List Char :=
  c! "。「」、・ヲァィゥェォャュョッーアイウエオカキクケコサシスセソタチツテトナニヌネノハヒフヘホマミムメモヤユヨラリルレロワン"

/-- The preset: full-width ASCII U+FF01..U+FF5D (except U+FF02 and U+FF07) moves down by
0xFEE0; half-width kana and punctuation U+FF61..U+FF9D (except U+FF70) become full-width; the
remaining five characters are listed; everything else is unchanged. -/
def presetFold (c : Char) : Char :=
  let n := c.toNat
  if 0xFF01 ≤ n ∧ n ≤ 0xFF5D ∧ n ≠ 0xFF02 ∧ n ≠ 0xFF07 then Char.ofNat (n - 0xFEE0)
  else if 0xFF61 ≤ n ∧ n ≤ 0xFF9D ∧ n ≠ 0xFF70 then fullKana.getD (n - 0xFF61) c
  else if c = '”' then '"'
  else if c = '’' then '\''
  else if c = '￥' then '¥'
  else if c = '〜' then '~'
  else if c = '　' then ' '
  else c

/-- The characters neologdn turns into `ー`. -/
def choonpuVariants : List Char := ['﹣', 'ｰ', '—', '―', '─', '━']

/-- The characters neologdn turns into `-` (besides full-width `－`). -/
def hyphenVariants : List Char := ['˗', '֊', '‐', '‑', '‒', '–', '⁃', '⁻', '₋', '−']

/-- The folding of neologdn: `＝` stays, the variants are unified, the rest as the preset. -/
def neologdnFold (c : Char) : Char :=
  if c = '＝' then '＝'
  else if c ∈ choonpuVariants then 'ー'
  else if c ∈ hyphenVariants then '-'
  else presetFold c

end Chanoma
