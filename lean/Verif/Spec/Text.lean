import Verif.Model.Rust
/-! # Specifications of the simple text operations -/

namespace Chanoma

/-- Collapse every run of `c` into one `c`: a `c` followed by another `c` is dropped. -/
def squeeze (c : Char) : Str → Str
  | [] => []
  | a :: t => if a = c ∧ t.head? = some c then squeeze c t else a :: squeeze c t

/-- The maximal space-free pieces of a text. -/
def words : Str → List Str
  | [] => []
  | c :: t =>
    if c = ' ' then words t
    else match t, words t with
      | d :: _, w :: ws => if d = ' ' then [c] :: w :: ws else (c :: w) :: ws
      | _, _ => [[c]]

/-- Is it an ASCII letter or digit? (`none`: no character there.) -/
def IsAlnum : Option Char → Prop
  | some c => '0' ≤ c ∧ c ≤ '9' ∨ 'A' ≤ c ∧ c ≤ 'Z' ∨ 'a' ≤ c ∧ c ≤ 'z'
  | none => False

instance : (o : Option Char) → Decidable (IsAlnum o)
  | some c => inferInstanceAs
      (Decidable ('0' ≤ c ∧ c ≤ '9' ∨ 'A' ≤ c ∧ c ≤ 'Z' ∨ 'a' ≤ c ∧ c ≤ 'z'))
  | none => inferInstanceAs (Decidable False)

/-- Put the pieces together, with one space between two pieces that touch in ASCII
alphanumerics and with nothing between other pieces. -/
def joinWords : List Str → Str
  | [] => []
  | [w] => w
  | w :: w' :: ws =>
    w ++ (if IsAlnum w.getLast? ∧ IsAlnum w'.head? then [' '] else []) ++ joinWords (w' :: ws)

/-- The dotted-space rule. -/
def spaceRule (t : Str) : Str := joinWords (words t)

/-- Every space stands between two ASCII alphanumerics (in particular no two spaces touch). -/
def SpacesOk (t : Str) : Prop :=
  ∀ u v, t = u ++ ' ' :: v → IsAlnum u.getLast? ∧ IsAlnum v.head?

example : words (c! "  ab c  d ") = [c! "ab", c! "c", c! "d"] := by decide +kernel
example : spaceRule (c! " ab  cd あ e f  い う ") = c! "ab cdあe fいう" := by decide +kernel

end Chanoma
