import Verif.Model.Configuration
/-! # The binaries `src/main.rs`, `src/bin/output.rs` and the Python binding -/

namespace Chanoma

/-- `/repo/src/main.rs:7-15`, struct `Opts` (parsed from the arguments in `Verif/Model/CommandLine.lean`). -/
structure CliOpts where
  input : Option Str
  debug : Bool
  preset : Bool
  neologdn : Bool

/-- The bytes up to the first newline byte, including it. -/
def readUntilNewline : List UInt8 → List UInt8
  | [] => []
  | b :: bs => if b = 0x0A then [b] else b :: readUntilNewline bs

/-- `Stdin::read_line`, called in `/repo/src/main.rs:39`: the first line including its newline; if it
is not valid UTF-8, the error with this message.  `stdin` is what can be read from standard input, or
the message of the error met before the end of the first line. -/
def readLine (stdin : Except Str (List UInt8)) : Except Str Str :=
  match stdin with
  | .error msg => .error msg
  | .ok b => match strFromUtf8 (readUntilNewline b) with
    | some line => .ok line
    | none => .error (c! "stream did not contain valid UTF-8")

/-- `/repo/src/main.rs:17-52`, `main`: what is printed on standard output.  A failing
`load_rc` panics. -/
def cliMain (σ : Oracle) (σs : Nat → Oracle) (w : World) (opts : CliOpts)
    (stdin : Except Str (List UInt8)) : Outcome Str := do
  let chanoma ← match Chanoma.loadRc σ w with
    | .ok c => .ok c
    | .err _ => .panic
    | .panic => .panic
  let chanoma ← if opts.preset then chanoma.usePreset σ else .ok chanoma
  let chanoma ← if opts.neologdn then chanoma.useNeologdn σ else .ok chanoma
  match opts.input with
  | some input => do
    let result ← chanoma.normalize σs opts.debug input
    return result ++ ['\n']
  | none => match readLine stdin with
    | .ok line => do
      let result ← chanoma.normalize σs opts.debug (trimEndMatches '\n' line)
      return result ++ ['\n']
    | .error msg => return c! "error: " ++ msg ++ ['\n']

/-- `/repo/src/bin/output.rs:45-52` with the format `csv` (the default): the printed text. -/
def outputMainCsv (σ : Oracle) : Str :=
  toCsvWriter (TableBuilder.new.preset σ).build.corr ++ ['\n']

/-- `/repo/src/bin/output.rs:45-52` with the format `yaml`: the printed document. -/
def outputMainYaml (σ : Oracle) : YValue :=
  toSerializedCorr (TableBuilder.new.preset σ).build.corr

/-- What the `output` binary prints: a text, or a YAML document followed by a line end (its text is
made by `serde_yaml`). -/
inductive Printed where
  | text (s : Str)
  | yaml (v : YValue)

/-- `/repo/src/bin/output.rs:8-52`: `Format::from_str`, `Format::output` and `main`. -/
def outputMain (σ : Oracle) (format : Str) : Printed :=
  if format = c! "yaml" then .yaml (outputMainYaml σ) else .text (outputMainCsv σ)

/-! ## `/repo/bindings/python3/src/lib.rs` -/

/-- `/repo/bindings/python3/src/lib.rs:16-29`: the arguments of the constructor. -/
structure PyArgs where
  table : Option Table := none
  neologdn : Bool := false
  preset : Bool := false
  rc : Bool := false
  configfile : Option Str := none

/-- `/repo/bindings/python3/src/lib.rs:23-48`, `Chanoma.__new__`.  `Err` stands for the Python
exception `OSError`. -/
def pyChanomaNew (σ : Oracle) (w : World) (a : PyArgs) : Outcome Chanoma := do
  let c ← match a.configfile with
    | some file => Chanoma.fromConfigFile σ w (strBytes file)
    | none => if a.rc then Chanoma.loadRc σ w else .ok Chanoma.new
  let c ← match a.table with
    | some t => c.addTable t
    | none => .ok c
  let c ← if a.preset then c.usePreset σ else .ok c
  if a.neologdn then c.useNeologdn σ else .ok c

/-- `/repo/bindings/python3/src/lib.rs:50-52`, `Chanoma.normalize`; no logger is installed. -/
def pyNormalize (c : Chanoma) (σs : Nat → Oracle) (text : Str) : Outcome Str :=
  c.normalize σs false text

/-- `/repo/bindings/python3/src/lib.rs:133-149`, `Table.__new__`. -/
def pyTableNew (σ : Oracle) (w : World) (preset : Bool) (csv yaml : Option Str) : Outcome Table := do
  let t := TableBuilder.new
  let t := if preset then t.preset σ else t
  let t ← match csv with
    | some p => match t.addFromCsv σ w (strBytes p) with
      | (t, .ok ()) => .ok t
      | (_, .err e) => .err e
      | (_, .panic) => .panic
    | none => .ok t
  let t ← match yaml with
    | some p => match t.addFromYaml σ w (strBytes p) with
      | (t, .ok ()) => .ok t
      | (_, .err e) => .err e
      | (_, .panic) => .panic
    | none => .ok t
  return t.build

/-- `/repo/bindings/python3/src/lib.rs:151-155`, `Table.add` (after extraction of `items`). -/
def pyTableAdd (σ : Oracle) (t : Table) (items : List Item) : Table := t.add σ items

/-- The classes of `/repo/bindings/python3/src/characters_set.rs:105-114`. -/
inductive PyCharactersSet where
  | alphabets | digits | punctuations | kanas | cjkCompatibilities
  deriving DecidableEq, Repr

/-- `/repo/bindings/python3/src/characters_set.rs:5-103`: the attribute `items` of an object of these
classes (converted item by item, `/repo/bindings/python3/src/lib.rs:69-85`). -/
def PyCharactersSet.items (σ : Oracle) : PyCharactersSet → List Item
  | .alphabets => alphabetsItems σ
  | .digits => digitsItems σ
  | .punctuations => punctuationsItems σ
  | .kanas => kanasItems σ
  | .cjkCompatibilities => cjkItems σ

end Chanoma
