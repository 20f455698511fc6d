import Verif.Model.File
import Verif.Model.Chanoma
/-! # `src/file_extension.rs`, `src/configuration.rs` and the loading part of `src/chanoma.rs` -/

namespace Chanoma

/-! ## Paths (`std::path`, Unix): `/` is 0x2F and `.` is 0x2E -/

/-- The components of a path that matter for `file_name`: empty ones and `.` are skipped. -/
def pathComponents (p : OsStr) : List OsStr :=
  (splitChar 0x2F p).filter fun c => !(c == [] || c == [0x2E])

/-- `Path::file_name`. -/
def pathFileName (p : OsStr) : Option OsStr :=
  match (pathComponents p).getLast? with
  | some f => if f = [0x2E, 0x2E] then none else some f
  | none => none

/-- `rsplit_file_at_dot` of `std::path`: split at the last dot. -/
def splitAtLastDot (f : OsStr) : Option (OsStr × OsStr) :=
  if 0x2E ∈ f then
    some ((f.reverse.dropWhile (· != 0x2E)).tail.reverse, (f.reverse.takeWhile (· != 0x2E)).reverse)
  else none

/-- `Path::extension`. -/
def pathExtension (p : OsStr) : Option OsStr := do
  let f ← pathFileName p
  let (before, after) ← splitAtLastDot f
  if before.isEmpty then none else some after

/-- `PathBuf::push`. -/
def pathPush (p q : OsStr) : OsStr :=
  if q.head? = some 0x2F then q
  else if p.isEmpty || p.getLast? = some 0x2F then p ++ q
  else p ++ [0x2F] ++ q

/-- `Path::file_stem` of a file name. -/
def fileStem (f : OsStr) : OsStr :=
  match splitAtLastDot f with
  | some (before, _) => if before.isEmpty then f else before
  | none => f

/-- `PathBuf::set_extension`.  Simplification: for a path that ends in its file name (no
trailing `/` or `/.`), the only case that occurs in chanoma. -/
def pathSetExtension (p ext : OsStr) : OsStr :=
  match pathFileName p with
  | none => p
  | some f => p.take (p.length - f.length) ++ fileStem f ++ (if ext.isEmpty then [] else 0x2E :: ext)

/-! ## `FileExtension` -/

/-- `/repo/src/file_extension.rs:10-14`. -/
inductive FileExtension where
  | csv
  | yaml
  deriving DecidableEq, Repr

namespace FileExtension

/-- `EnumIter`, `/repo/src/file_extension.rs:9`. -/
def all : List FileExtension := [.csv, .yaml]

/-- `/repo/src/file_extension.rs:18-25`, `from_str`. -/
def fromStr (ext : Str) : Outcome FileExtension :=
  if ext = c! ".csv" ∨ ext = c! "csv" then .ok .csv
  else if ext = c! ".yaml" ∨ ext = c! "yaml" ∨ ext = c! ".yml" ∨ ext = c! "yml" then .ok .yaml
  else .err (.unsupportedFileExtension ext)

/-- `/repo/src/file_extension.rs:29-35`, `to_string`. -/
def toString : FileExtension → Str
  | .csv => c! "csv"
  | .yaml => c! "yaml"

/-- `/repo/src/file_extension.rs:47-58`, `from_path`. -/
def fromPath (path : OsStr) : Outcome FileExtension :=
  match pathExtension path with
  | some ext => match strFromUtf8 ext with
    | some s => fromStr s
    | none => .err (.fileExtensionCanNotConvertToStr path)
  | none => .err (.fileExtensionNotFoundInPath path)

end FileExtension

/-! ## `Configuration` -/

namespace Configuration

/-- `/repo/src/configuration.rs:15`. -/
def fileNames : List OsStr := [p! "chanomarc", p! ".chanomarc"]

/-- `/repo/src/configuration.rs:67-78`, `load_items_to_character_converter`. -/
def loadItemsToCharacterConverter (w : World) (path : OsStr) (ext : FileExtension) :
    Outcome CharacterConverter := do
  let table ← match ext with
    | .csv => tableFromCsvPath w path
    | .yaml => tableFromYamlPath w path
  CharacterConverter.fromTables [table]

/-- `/repo/src/configuration.rs:80-87`, `load_modifiers`. -/
def loadModifiers (σ : Oracle) (w : World) (path : OsStr) (ext : FileExtension) :
    Outcome (List ModifierKind) :=
  match ext with
  | .yaml => modifiersFromYamlPath σ w path
  | _ => .ok []

/-- `/repo/src/configuration.rs:89-95`, `load_file_with_ext`
(and `from_path`, `/repo/src/configuration.rs:17-19`). -/
def loadFileWithExt (σ : Oracle) (w : World) (path : OsStr) : Outcome (List ModifierKind) := do
  let ext ← FileExtension.fromPath path
  let conv ← loadItemsToCharacterConverter w path ext
  let modifiers ← loadModifiers σ w path ext
  return modifiers ++ [.characterConverter conv]

/-- `/repo/src/configuration.rs:108-117`, `valid_file_path`. -/
def validFilePath (w : World) (path : OsStr) : Outcome (List OsStr) :=
  if !w.isFile path then .err (.rcFileLoad path)
  else do
    let extension ← unwrap (pathExtension path)
    let extension ← unwrap (strFromUtf8 extension)
    if FileExtension.all.all (fun ext => ext.toString != extension) then .err (.rcFileLoad path)
    else return [path]

/-- `/repo/src/configuration.rs:120-132`, `auto_load_dirs`. -/
def autoLoadDirs (w : World) : List OsStr :=
  (match w.home with
    | some h => [pathPush h (p! ".config/chanoma"), h]
    | none => []) ++
  (match w.cwd with
    | some d => [d]
    | none => [])

/-- `/repo/src/configuration.rs:136-150`, `auto_load_paths_from_dir`. -/
def autoLoadPathsFromDir (dir : OsStr) : List OsStr :=
  fileNames.flatMap fun file =>
    FileExtension.all.map fun ext => pathSetExtension (pathPush dir file) (strBytes ext.toString)

/-- `/repo/src/configuration.rs:153-162`, `exists_file_paths`. -/
def existsFilePaths (w : World) (dirs : List OsStr) (expand : OsStr → List OsStr) : List OsStr :=
  (dirs.flatMap expand).filter w.isFile

/-- `/repo/src/configuration.rs:99-105`, `file_path_from_env`: `env::var` fails if the value is not
valid UTF-8. -/
def filePathFromEnv (w : World) : Option OsStr := do
  let value ← w.chanomarc
  let s ← strFromUtf8 value
  return strBytes s

/-- `/repo/src/configuration.rs:47-65`, `file_paths`. -/
def filePaths (w : World) : Outcome (List OsStr) :=
  match filePathFromEnv w with
  | some path => validFilePath w path
  | none => .ok (existsFilePaths w (autoLoadDirs w) autoLoadPathsFromDir)

/-- `/repo/src/configuration.rs:21-45`, `load`: collecting into a `Result` stops at the first
error. -/
def load (σ : Oracle) (w : World) : Outcome (List ModifierKind) := do
  let paths ← filePaths w
  if paths.isEmpty then return []
  else do
    let result ← paths.mapM (loadFileWithExt σ w)
    return result.flatten

end Configuration

/-- `/repo/src/chanoma.rs:43-47`, `Chanoma::load_rc`. -/
def Chanoma.loadRc (σ : Oracle) (w : World) : Outcome Chanoma := do
  return ⟨← Configuration.load σ w⟩

/-- `/repo/src/chanoma.rs:56-60`, `Chanoma::from_config_file`. -/
def Chanoma.fromConfigFile (σ : Oracle) (w : World) (path : OsStr) : Outcome Chanoma := do
  return ⟨← Configuration.loadFileWithExt σ w path⟩

end Chanoma
