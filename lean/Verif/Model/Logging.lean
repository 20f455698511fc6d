import Verif.Model.CommandLine
/-! # Logging, and what a run of `src/main.rs` leaves behind

The three `log::debug!` calls of the library (`/repo/src/configuration.rs:23-25`,
`/repo/src/configuration.rs:50-57`, `/repo/src/chanoma.rs:146-148`).  The functions that contain one, or
call a function that does, are written again here with the messages they log; `debug` is
`log_enabled!(log::Level::Debug)`.  Simplification: a message is the values it shows, not their text
(made by `derive(Debug)`, with the entries of hash maps in any order). -/

namespace Chanoma

/-- A message on the log. -/
inductive LogEvent where
  /-- `/repo/src/configuration.rs:51-56`: `CHANOMARC: {path}; (exists: {found})` -/
  | chanomarc (path : OsStr) (found : Bool)
  /-- `/repo/src/configuration.rs:24`: `load files: {paths}` -/
  | loadFiles (paths : List OsStr)
  /-- `/repo/src/chanoma.rs:147`: the record of a modifier -/
  | record (r : ModifiedRecord)
  deriving DecidableEq, Repr

/-- What a call logs and how it ends. -/
structure Logged (α : Type) where
  log : List LogEvent
  result : Outcome α

namespace Logged

/-- A call that logs nothing. -/
def quiet (o : Outcome α) : Logged α := ⟨[], o⟩

/-- `if log_enabled!(log::Level::Debug) { log::debug!(..) }`. -/
def emit (debug : Bool) (e : LogEvent) : Logged Unit := ⟨if debug then [e] else [], .ok ()⟩

/-- One call after the other; an error (`?`) or a panic ends the sequence. -/
def andThen (x : Logged α) (f : α → Logged β) : Logged β :=
  match x.result with
  | .ok a => ⟨x.log ++ (f a).log, (f a).result⟩
  | .err e => ⟨x.log, .err e⟩
  | .panic => ⟨x.log, .panic⟩

instance : Monad Logged where
  pure a := quiet (.ok a)
  bind := andThen

end Logged

open Logged

/-- `/repo/src/configuration.rs:47-65`, `file_paths`; `path.exists()` is true also for directories. -/
def Configuration.filePathsLogged (debug : Bool) (w : World) : Logged (List OsStr) :=
  match Configuration.filePathFromEnv w with
  | some path => do
    emit debug (.chanomarc path (w.entry path).isSome)
    quiet (Configuration.validFilePath w path)
  | none => quiet (.ok (Configuration.existsFilePaths w (Configuration.autoLoadDirs w)
      Configuration.autoLoadPathsFromDir))

/-- `/repo/src/configuration.rs:21-45`, `load`. -/
def Configuration.loadLogged (σ : Oracle) (debug : Bool) (w : World) : Logged (List ModifierKind) := do
  let paths ← Configuration.filePathsLogged debug w
  emit debug (.loadFiles paths)
  if paths.isEmpty then return []
  else do
    let result ← quiet (paths.mapM (Configuration.loadFileWithExt σ w))
    return result.flatten

namespace Chanoma

/-- `/repo/src/chanoma.rs:43-47`, `Chanoma::load_rc`. -/
def loadRcLogged (σ : Oracle) (debug : Bool) (w : World) : Logged Chanoma := do
  return ⟨← Configuration.loadLogged σ debug w⟩

/-- `/repo/src/chanoma.rs:141-153`, `normalize_with_positions`. -/
def normalizeWithPositionsLogged (c : Chanoma) (σs : Nat → Oracle) (debug : Bool) (text : Str) :
    Logged ModifiedRecords := do
  let (v, _) ← c.modifiers.zipIdx.foldlM
    (fun (st : List ModifiedRecord × Str) (m : ModifierKind × Nat) => do
      let result ← quiet (m.1.modifyWithPositions (σs m.2) st.2)
      emit debug (.record result)
      return (st.1 ++ [result], result.text)) (([] : List ModifiedRecord), text)
  return ⟨v⟩

/-- `/repo/src/chanoma.rs:122-130`, `normalize`. -/
def normalizeLogged (c : Chanoma) (σs : Nat → Oracle) (debug : Bool) (text : Str) : Logged Str :=
  if !debug then
    quiet (c.modifiers.zipIdx.foldlM (fun acc m => m.1.modify (σs m.2) acc) text)
  else do
    let r ← c.normalizeWithPositionsLogged σs debug text
    quiet r.text

end Chanoma

/-- `/repo/src/main.rs:22-27`: the rc files are loaded; an error becomes a panic. -/
def cliLoadLogged (σ : Oracle) (debug : Bool) (w : World) : Logged Chanoma :=
  let loaded := Chanoma.loadRcLogged σ debug w
  match loaded.result with
  | .ok c => ⟨loaded.log, .ok c⟩
  | .err _ => ⟨loaded.log, .panic⟩
  | .panic => ⟨loaded.log, .panic⟩

/-- `/repo/src/main.rs:28-33`: the modifiers asked for by `-p` and `-n` are added. -/
def cliPipeline (σ : Oracle) (opts : CliOpts) (c : Chanoma) : Outcome Chanoma := do
  let c ← if opts.preset then c.usePreset σ else .ok c
  if opts.neologdn then c.useNeologdn σ else .ok c

/-- `/repo/src/main.rs:34-51`: the argument or the first line of standard input is normalised and
printed. -/
def cliPrintLogged (σs : Nat → Oracle) (opts : CliOpts) (stdin : Except Str (List UInt8)) (c : Chanoma) :
    Logged Str :=
  match opts.input with
  | some input => do
    let result ← c.normalizeLogged σs opts.debug input
    return result ++ ['\n']
  | none => match readLine stdin with
    | .ok line => do
      let result ← c.normalizeLogged σs opts.debug (trimEndMatches '\n' line)
      return result ++ ['\n']
    | .error msg => return c! "error: " ++ msg ++ ['\n']

/-- `/repo/src/main.rs:17-52`, `main`: the log and what is printed.  `RUST_LOG` is set by the program
(`/repo/src/main.rs:19-20`), so `-d` alone decides whether the level is `debug`. -/
def cliMainLogged (σ : Oracle) (σs : Nat → Oracle) (w : World) (opts : CliOpts)
    (stdin : Except Str (List UInt8)) : Logged Str := do
  let chanoma ← cliLoadLogged σ opts.debug w
  let chanoma ← quiet (cliPipeline σ opts chanoma)
  cliPrintLogged σs opts stdin chanoma

/-- What a run leaves behind: standard output, the log, and the exit status. -/
structure Run where
  stdout : Str
  log : List LogEvent
  status : Nat
  deriving DecidableEq, Repr

/-- The process running `/repo/src/main.rs:17-52`: its status is 0 if `main` returns and 101 if it
panics (the documented behaviour of Rust programs).  Simplification: standard output can be written. -/
def cliRun (σ : Oracle) (σs : Nat → Oracle) (w : World) (opts : CliOpts)
    (stdin : Except Str (List UInt8)) : Run :=
  let r := cliMainLogged σ σs w opts stdin
  match r.result with
  | .ok out => ⟨out, r.log, 0⟩
  | .err _ => ⟨[], r.log, 101⟩
  | .panic => ⟨[], r.log, 101⟩

end Chanoma
