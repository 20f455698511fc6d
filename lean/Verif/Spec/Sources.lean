import Verif.Model.Chanoma
import Verif.Spec.Width
/-! # Specification: the texts that come out the same -/

namespace Chanoma

/-- `ts` are the texts, each once, that the pipeline turns into `out`. -/
def Chanoma.Sources (c : Chanoma) (out : Str) (ts : List Str) : Prop :=
  ts.Nodup ∧ ∀ t, t ∈ ts ↔ ∀ σs, c.normalize σs false t = .ok out

/-- The characters with a variant that the preset replaces by them: space and printable ASCII, the yen
sign, and the katakana and punctuation marks with a half-width form, except `ー`. -/
def hasVariant (d : Char) : Bool :=
  (0x20 ≤ d.toNat ∧ d.toNat ≤ 0x7E) ∨ d = '¥' ∨ (d ∈ fullKana ∧ d ≠ 'ー')

end Chanoma
