import Verif.Model.Cli
/-! # The command line of `src/main.rs`

`Opts::parse` (`/repo/src/main.rs:18`) is generated by `clap` 3.1 from the struct at
`/repo/src/main.rs:5-15`.  The source of `clap` is not in the repository; what it does with this struct
is modelled here from its documentation: one optional positional argument, three flags with a short and
a long name that may be given once each, short flags that may be written together, and `--` after which
every argument is positional.  Simplification: `clap` ends the program for `--help`, `-h`, `--version`
and `-V` (with a text) and for everything it rejects (with an error); both are `none` here. -/

namespace Chanoma

/-- What `clap` has collected for `Opts` (`/repo/src/main.rs:7-15`): how often each flag was given, and
the positional argument. -/
structure ClapSeen where
  debug : Nat := 0
  preset : Nat := 0
  neologdn : Nat := 0
  input : Option Str := none

/-- A long flag, without the two hyphens (`/repo/src/main.rs:9-14`, `long`). -/
def clapLong (name : OsStr) (s : ClapSeen) : Option ClapSeen :=
  if name = p! "debug" then some { s with debug := s.debug + 1 }
  else if name = p! "preset" then some { s with preset := s.preset + 1 }
  else if name = p! "neologdn" then some { s with neologdn := s.neologdn + 1 }
  else none

/-- Short flags written together, without the hyphen (`/repo/src/main.rs:9-14`, `short`). -/
def clapShorts : OsStr → ClapSeen → Option ClapSeen
  | [], s => some s
  | b :: bs, s =>
    if b = 0x64 then clapShorts bs { s with debug := s.debug + 1 }
    else if b = 0x70 then clapShorts bs { s with preset := s.preset + 1 }
    else if b = 0x6E then clapShorts bs { s with neologdn := s.neologdn + 1 }
    else none

/-- A positional argument (`/repo/src/main.rs:8`, `input: Option<String>`): there is one, and it must be
valid UTF-8. -/
def clapPositional (a : OsStr) (s : ClapSeen) : Option ClapSeen :=
  match s.input with
  | some _ => none
  | none => match strFromUtf8 a with
    | some t => some { s with input := some t }
    | none => none

/-- The loop over the arguments; the first argument says whether `--` has been met. -/
def clapGo : Bool → List OsStr → ClapSeen → Option ClapSeen
  | _, [], s => some s
  | true, a :: as, s => do
    let s ← clapPositional a s
    clapGo true as s
  | false, a :: as, s =>
    match a with
    | 0x2D :: 0x2D :: [] => clapGo true as s
    | 0x2D :: 0x2D :: name => do
      let s ← clapLong name s
      clapGo false as s
    | 0x2D :: b :: bs => do
      let s ← clapShorts (b :: bs) s
      clapGo false as s
    | a => do
      let s ← clapPositional a s
      clapGo false as s

/-- `Opts::parse()`, `/repo/src/main.rs:18`: the options, or `none` if the program ends here. -/
def clapParse (args : List OsStr) : Option CliOpts := do
  let s ← clapGo false args {}
  if s.debug ≤ 1 ∧ s.preset ≤ 1 ∧ s.neologdn ≤ 1 then
    some { input := s.input, debug := 0 < s.debug, preset := 0 < s.preset, neologdn := 0 < s.neologdn }
  else none

/-- `/repo/src/main.rs:17-52` from the arguments on: `none` if `Opts::parse` ends the program. -/
def cliProgram (σ : Oracle) (σs : Nat → Oracle) (w : World) (args : List OsStr)
    (stdin : Except Str (List UInt8)) : Option (Outcome Str) := do
  let opts ← clapParse args
  return cliMain σ σs w opts stdin

end Chanoma
