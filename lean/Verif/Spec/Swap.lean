import Verif.Spec.Config
/-! # Specification: which two modifiers may be exchanged -/

namespace Chanoma

/-- The character that takes the place of `c`. -/
def image (pairs : List (Char × Char)) (c : Char) : Char := (lastPair pairs c).getD c

/-- Neither a ligature translator nor neologdn. -/
def Step.Simple : Step → Prop
  | .ligature _ | .neologdn => False
  | _ => True

/-- The condition under which two simple modifiers may be exchanged. -/
def MaySwap : Step → Step → Prop
  | .convert l, .convert l' => ∀ c, image l (image l' c) = image l' (image l c)
  | .convert l, .eliminate cs | .eliminate cs, .convert l => ∀ c, image l c ∈ cs ↔ c ∈ cs
  | .convert l, .reduce d | .reduce d, .convert l => ∀ c, image l c = d ↔ c = d
  | .convert l, .trim | .trim, .convert l => ∀ c, image l c = ' ' ↔ c = ' '
  | .convert l, .spaces | .spaces, .convert l =>
    ∀ c, (image l c = ' ' ↔ c = ' ') ∧ (IsAlnum (some (image l c)) ↔ IsAlnum (some c))
  | .eliminate cs, .reduce d | .reduce d, .eliminate cs => cs = [] ∨ d ∈ cs
  | .eliminate cs, .trim | .trim, .eliminate cs => cs = [] ∨ ' ' ∈ cs
  | .eliminate cs, .spaces | .spaces, .eliminate cs => cs = [] ∨ ' ' ∈ cs
  | .reduce c, .spaces | .spaces, .reduce c => c = ' ' ∨ IsAlnum (some c)
  | .eliminate _, .eliminate _ | .reduce _, .reduce _ | .reduce _, .trim | .trim, .reduce _
  | .trim, .spaces | .spaces, .trim | .trim, .trim | .spaces, .spaces => True
  | .ligature _, _ | .neologdn, _ | _, .ligature _ | _, .neologdn => False

/-- The condition under which a simple modifier may be repeated without effect. -/
def MayRepeat : Step → Prop
  | .convert l => ∀ c, image l (image l c) = image l c
  | .eliminate _ | .reduce _ | .spaces | .trim => True
  | .ligature _ | .neologdn => False

end Chanoma
