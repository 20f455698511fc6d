import Verif.Model.Configuration
/-! # Loading configurations while the environment changes

`Verif/Model/Configuration.lean` assumes that the environment does not change during a call.  Here
every access of the program to it meets an environment of its own.  `ws t` is the environment at the
access number `t`; the numbers ascend in the order of the accesses, and some are left out.
Opening a file and reading it to its end is one access.  The `exists` of the debug log
(`/repo/src/configuration.rs:50-57`) is left out: its answer is only logged. -/

namespace Chanoma
namespace Configuration

/-- `/repo/src/configuration.rs:89-95`, `load_file_with_ext`: the file is read for the items, and (if it
is a YAML file) once more for the modifiers. -/
def loadFileAt (σ : Oracle) (w₁ w₂ : World) (path : OsStr) : Outcome (List ModifierKind) := do
  let ext ← FileExtension.fromPath path
  let conv ← loadItemsToCharacterConverter w₁ path ext
  let modifiers ← loadModifiers σ w₂ path ext
  return modifiers ++ [.characterConverter conv]

/-- `/repo/src/configuration.rs:47-65`, `file_paths`: the variable `CHANOMARC` is read (access 0); its
file is looked for (1); or the home directory (1) and the current directory (2) are asked for, and each
candidate is looked for (3 and following). -/
def filePathsAt (ws : Nat → World) : Outcome (List OsStr) :=
  match filePathFromEnv (ws 0) with
  | some path => validFilePath (ws 1) path
  | none =>
    let dirs := autoLoadDirs { ws 1 with cwd := (ws 2).cwd }
    .ok (((dirs.flatMap autoLoadPathsFromDir).zipIdx.filter fun p => (ws (3 + p.2)).isFile p.1).map Prod.fst)

/-- `/repo/src/configuration.rs:21-45`, `load`: there are at most twelve candidates, so the first file is
read at the accesses 15 and 16, the next one at 17 and 18, and so on. -/
def loadAt (σ : Oracle) (ws : Nat → World) : Outcome (List ModifierKind) := do
  let paths ← filePathsAt ws
  if paths.isEmpty then return []
  else do
    let result ← paths.zipIdx.mapM fun p => loadFileAt σ (ws (15 + 2 * p.2)) (ws (16 + 2 * p.2)) p.1
    return result.flatten

end Configuration

/-- `/repo/src/chanoma.rs:56-60`, `Chanoma::from_config_file`. -/
def Chanoma.fromConfigFileAt (σ : Oracle) (w₁ w₂ : World) (path : OsStr) : Outcome Chanoma := do
  return ⟨← Configuration.loadFileAt σ w₁ w₂ path⟩

/-- `/repo/src/chanoma.rs:43-47`, `Chanoma::load_rc`. -/
def Chanoma.loadRcAt (σ : Oracle) (ws : Nat → World) : Outcome Chanoma := do
  return ⟨← Configuration.loadAt σ ws⟩

/-- `/repo/src/table.rs:235-240`, `TableBuilder::from_csv_path`: the path is resolved and then the file is
read. -/
def TableBuilder.fromCsvPathAt (w₁ w₂ : World) (path : OsStr) : Outcome TableBuilder :=
  match w₁.canonicalize path with
  | some p => do return ⟨← tableFromCsvPath w₂ p⟩
  | none => .err .io

/-- `/repo/src/table.rs:221-226`, `TableBuilder::from_yaml_path`. -/
def TableBuilder.fromYamlPathAt (w₁ w₂ : World) (path : OsStr) : Outcome TableBuilder :=
  match w₁.canonicalize path with
  | some p => do return ⟨← tableFromYamlPath w₂ p⟩
  | none => .err .io

end Chanoma
