import Verif.Model.Rust
/-! # Specification: texts that differ at one place -/

namespace Chanoma

/-- The two texts are the same but for at most `n` characters at one place. -/
def Near (n : Nat) (x y : Str) : Prop :=
  ∃ p a b s, x = p ++ a ++ s ∧ y = p ++ b ++ s ∧ a.length ≤ n ∧ b.length ≤ n

example : Near 1 (c! "color") (c! "colour") := ⟨c! "colo", [], c! "u", c! "r", rfl, rfl, by decide, by decide⟩

end Chanoma
