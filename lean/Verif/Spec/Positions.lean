import Verif.Model.Position
import Verif.Spec.Text
/-! # Specifications: what positions say about the input -/

namespace Chanoma

/-- `index`/`length` is a byte range and `utf8_index`/`utf8_length` a character range of the
input, and both locate the same piece, `from`. -/
def Locates (input : Str) (p : Position) : Prop :=
  ∃ pre post, input = pre ++ p.from ++ post ∧
    p.index = strLen pre ∧ p.length = strLen p.from ∧
    p.utf8Index = pre.length ∧ p.utf8Length = p.from.length

/-- The text made of alternating runs of `c` (of the given lengths) and other pieces. -/
def runsText (c : Char) (segs : List (Nat × Str)) : Str :=
  segs.flatMap fun s => List.replicate s.1 c ++ s.2

/-- `segs` lists maximal runs: the runs are non-empty, the pieces after them do not contain `c`,
and only the last piece may be empty. -/
def RunsOk (c : Char) : List (Nat × Str) → Prop
  | [] => True
  | [s] => 0 < s.1 ∧ c ∉ s.2
  | s :: rest => 0 < s.1 ∧ c ∉ s.2 ∧ s.2 ≠ [] ∧ RunsOk c rest

/-- What the reducer reports for the runs of a text of `total` bytes, `pre` being the text
before the first of them.  `index` is the number of bytes of the *output* up to and including
the reduced character; `utf8_index` is the character index *after* the run, except for a run at
the end of the text, where it is the input's byte length minus the run's character length. -/
def reducerPositions (c : Char) (total : Nat) : (pre : Str) → List (Nat × Str) → List Position
  | _, [] => []
  | pre, s :: rest =>
    { «from» := List.replicate s.1 c
      to := [c]
      index := strLen (squeeze c pre) + c.utf8Size
      length := s.1 * c.utf8Size
      utf8Index := if s.2 = [] then total - s.1 else pre.length + s.1
      utf8Length := s.1 } :: reducerPositions c total (pre ++ List.replicate s.1 c ++ s.2) rest

/-- `Covers input output edits`: the output is the input with the given pieces replaced, from left
to right, and everything else is the same. -/
inductive Covers : Str → Str → List (Str × Str) → Prop
  | nil : Covers [] [] []
  | keep (c : Char) {a b l} : Covers a b l → Covers (c :: a) (c :: b) l
  | edit (x y : Str) {a b l} : Covers a b l → Covers (x ++ a) (y ++ b) ((x, y) :: l)

end Chanoma
