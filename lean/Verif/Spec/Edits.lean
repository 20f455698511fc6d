import Verif.Model.Rust
/-! # Texts that few changes turn into each other -/

namespace Chanoma

/-- One character is inserted, deleted or replaced. -/
inductive Edit : Str → Str → Prop
  | insert (p : Str) (c : Char) (s : Str) : Edit (p ++ s) (p ++ c :: s)
  | delete (p : Str) (c : Char) (s : Str) : Edit (p ++ c :: s) (p ++ s)
  | change (p : Str) (c d : Char) (s : Str) : Edit (p ++ c :: s) (p ++ d :: s)

/-- At most `n` such changes lead from the one text to the other (their edit distance is at most `n`). -/
inductive Within : Nat → Str → Str → Prop
  | same (n : Nat) (x : Str) : Within n x x
  | edit {n : Nat} {x y z : Str} : Edit x y → Within n y z → Within (n + 1) x z

example : Within 2 (c! "kitten") (c! "sittin") :=
  .edit (.change [] 'k' 's' (c! "itten")) (.edit (.change (c! "sitt") 'e' 'i' (c! "n")) (.same 0 _))

end Chanoma
