import Verif.Model.Cli
/-! # The command line of `src/bin/output.rs`

`Opts::parse` (`/repo/src/bin/output.rs:48`) is generated by `clap` 3.1 from the struct at
`/repo/src/bin/output.rs:38-43`.  The source of `clap` is not in the repository; what it does with this
struct is modelled here from its documentation: one option `-f`, `--format` that takes one value, is
given at most once, and is `csv` if not given; no positional arguments.  The value is the rest of the
argument (after an optional `=`) or the next argument, unless that starts with a hyphen.
Simplification: as in `Verif/Model/CommandLine.lean`, everything that ends the program (`--help`, `-h`,
`--version`, `-V` and errors) is `none`. -/

namespace Chanoma

/-- The value in the next argument: a single hyphen is one, other arguments starting with a hyphen are
not (`allow_hyphen_values` is off, `/repo/src/bin/output.rs:41`). -/
def outValue : OsStr → Option Str
  | 0x2D :: _ :: _ => none
  | a => strFromUtf8 a

/-- The value in the same argument, after the name of the option
(`/repo/src/bin/output.rs:41`). -/
def outAttached : OsStr → Option Str
  | 0x3D :: v => strFromUtf8 v
  | v => strFromUtf8 v

/-- The loop over the arguments, collecting the values of `--format`; the first argument says whether
`--` has been met. -/
def outGo : Bool → List OsStr → List Str → Option (List Str)
  | _, [], vs => some vs
  | true, _ :: _, _ => none
  | false, a :: as, vs =>
    if a = p! "--" then outGo true as vs
    else if a = p! "--format" ∨ a = p! "-f" then
      match as with
      | [] => none
      | v :: as => do
        let v ← outValue v
        outGo false as (vs ++ [v])
    else if (p! "--format=").isPrefixOf a then do
      let v ← outAttached (a.drop 8)
      outGo false as (vs ++ [v])
    else if (p! "-f").isPrefixOf a then do
      let v ← outAttached (a.drop 2)
      outGo false as (vs ++ [v])
    else none

/-- `Opts::parse()`, `/repo/src/bin/output.rs:48`: the format, or `none` if the program ends here. -/
def outParse (args : List OsStr) : Option Str := do
  match ← outGo false args [] with
  | [] => some (c! "csv")
  | [v] => some v
  | _ => none

/-- `/repo/src/bin/output.rs:45-52` from the arguments on: `none` if `Opts::parse` ends the program. -/
def outputProgram (σ : Oracle) (args : List OsStr) : Option Printed := do
  let format ← outParse args
  return outputMain σ format

end Chanoma
