import Verif.Model.Rust
/-! # Specification: the arguments of modifier strings -/

namespace Chanoma

/-- `parts` are the pieces of `s` between the separators. -/
def Pieces (sep : Char) (s : Str) (parts : List Str) : Prop :=
  parts ≠ [] ∧ (∀ p ∈ parts, sep ∉ p) ∧ s = [sep].intercalate parts

/-- The 25 characters that have the Unicode property `White_Space`. -/
def whiteSpace : List Char :=
  ['\t', '\n', '\u000b', '\u000c', '\r', ' ', '\u0085', '\u00a0', '\u1680', '\u2000', '\u2001', '\u2002', '\u2003',
    '\u2004', '\u2005', '\u2006', '\u2007', '\u2008', '\u2009', '\u200a', '\u2028', '\u2029', '\u202f', '\u205f', '\u3000']

/-- The first character that is not white space. -/
def firstVisible (s : Str) : Option Char := s.find? (· ∉ whiteSpace)

/-- An entry `a : b`: split at colons, exactly two pieces contain more than white space, and they
start with `a` and `b`. -/
def EntryPair (entry : Str) (a b : Char) : Prop :=
  ∃ parts, Pieces ':' entry parts ∧ parts.filterMap firstVisible = [a, b]

/-- The pairs of a list of entries; entries that are not pairs are skipped. -/
inductive EntryPairs : List Str → List (Char × Char) → Prop
  | nil : EntryPairs [] []
  | pair {entry : Str} {a b : Char} {es : List Str} {ps : List (Char × Char)} :
      EntryPair entry a b → EntryPairs es ps → EntryPairs (entry :: es) ((a, b) :: ps)
  | skip {entry : Str} {es : List Str} {ps : List (Char × Char)} :
      (¬ ∃ a b, EntryPair entry a b) → EntryPairs es ps → EntryPairs (entry :: es) ps

end Chanoma
