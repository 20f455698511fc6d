import Verif.Spec.CommandLine
/-! # What a command line of the `output` program means, as its user sees it -/

namespace Chanoma

/-- `GivesFormat line v`: these arguments give the format `v`, in one of the five notations; no
arguments give `csv`. -/
inductive GivesFormat : List OsStr → Str → Prop
  | nothing : GivesFormat [] (c! "csv")
  /-- `--format v` -/
  | long {v : Str} : PlainWord v → GivesFormat [p! "--format", strBytes v] v
  /-- `--format=v` -/
  | longEq (v : Str) : GivesFormat [p! "--format=" ++ strBytes v] v
  /-- `-f v` -/
  | short {v : Str} : PlainWord v → GivesFormat [p! "-f", strBytes v] v
  /-- `-f=v` -/
  | shortEq (v : Str) : GivesFormat [p! "-f=" ++ strBytes v] v
  /-- `-fv` -/
  | attached {v : Str} : v ≠ [] → v.head? ≠ some '=' → GivesFormat [p! "-f" ++ strBytes v] v

/-- The arguments give the format `v`, perhaps followed by `--`. -/
def OutputLine (args : List OsStr) (v : Str) : Prop :=
  GivesFormat args v ∨ ∃ line, args = line ++ [p! "--"] ∧ GivesFormat line v

end Chanoma
