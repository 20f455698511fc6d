import Verif.Model.Cli
/-! # What a command line means, as its user sees it -/

namespace Chanoma

/-- The flags of the program. -/
inductive CliFlag where
  | debug | preset | neologdn
  deriving DecidableEq, Repr

/-- `--debug`, `--preset`, `--neologdn`. -/
def CliFlag.long : CliFlag → OsStr
  | .debug => p! "--debug"
  | .preset => p! "--preset"
  | .neologdn => p! "--neologdn"

/-- The letter after the hyphen: `d`, `p`, `n`. -/
def CliFlag.letter : CliFlag → UInt8
  | .debug => 0x64
  | .preset => 0x70
  | .neologdn => 0x6E

/-- `Plain s`: the text does not look like a flag: it is a single hyphen or does not start with one. -/
def PlainWord (s : Str) : Prop := s = ['-'] ∨ ∀ t, s ≠ '-' :: t

/-- `WordMeans a fs ts`: the argument `a` gives these flags and these texts: a long flag, one or more
letters after a hyphen, or a plain text. -/
inductive WordMeans : OsStr → List CliFlag → List Str → Prop
  | long (f : CliFlag) : WordMeans f.long [f] []
  | letters (f : CliFlag) (fs : List CliFlag) :
      WordMeans (p! "-" ++ (f :: fs).map CliFlag.letter) (f :: fs) []
  | text (s : Str) : PlainWord s → WordMeans (strBytes s) [] [s]

/-- `LineMeans args fs ts`: the arguments give these flags and these texts, in this order; what follows
a first `--` is text. -/
inductive LineMeans : List OsStr → List CliFlag → List Str → Prop
  | done : LineMeans [] [] []
  | word {a args fs ts gs us} : WordMeans a fs ts → LineMeans args gs us →
      LineMeans (a :: args) (fs ++ gs) (ts ++ us)
  | dashes (ts : List Str) : LineMeans (p! "--" :: ts.map strBytes) [] ts

/-- `GivesOptions args opts`: the arguments give no flag twice and at most one text, and these are the
options. -/
def GivesOptions (args : List OsStr) (opts : CliOpts) : Prop :=
  ∃ fs ts, LineMeans args fs ts ∧ fs.Nodup ∧ ts.length ≤ 1 ∧ opts.input = ts.head? ∧
    (opts.debug = true ↔ .debug ∈ fs) ∧ (opts.preset = true ↔ .preset ∈ fs) ∧
    (opts.neologdn = true ↔ .neologdn ∈ fs)

end Chanoma
