import Verif.Model.Logging
import Verif.Spec.Logging
/-! # Specifications: programs joined by `|` in a shell -/

namespace Chanoma

/-- One call of the `chanoma` program: its options, its environment and its hash orders. -/
structure Program where
  opts : CliOpts
  w : World
  σ : Oracle
  σs : Nat → Oracle

/-- The run of the program with this standard input. -/
def Program.run (p : Program) (stdin : Except Str (List UInt8)) : Run := cliRun p.σ p.σs p.w p.opts stdin

/-- `p | q | …`: every program reads what the one before has printed.  A shell shows the output of the
last one, and its status. -/
def pipe : Program → List Program → Except Str (List UInt8) → Run
  | p, [], stdin => p.run stdin
  | p, q :: ps, stdin => pipe q ps (.ok (strBytes (p.run stdin).stdout))

/-- The text up to its first line end. -/
def firstLine (text : Str) : Str := text.takeWhile fun c => c ≠ '\n'

/-- What the modifiers of the program make of a text.  With `-d` there has to be a modifier. -/
def Program.Makes (p : Program) (text out : Str) : Prop :=
  ∃ ms, ProgramModifiers p.σ p.w p.opts ms ∧ (p.opts.debug = true → ms ≠ []) ∧
    (Chanoma.mk ms).normalize p.σs false text = .ok out

/-- What becomes of a text that goes through the programs: of what one makes only the first line
reaches the next one. -/
inductive Piped : Program → List Program → Str → Str → Prop
  | last {p : Program} {text out : Str} : p.Makes text out → Piped p [] text out
  | next {p q : Program} {ps : List Program} {text made out : Str} : p.Makes text made →
      q.opts.input = none → Piped q ps (firstLine made) out → Piped p (q :: ps) text out

end Chanoma
