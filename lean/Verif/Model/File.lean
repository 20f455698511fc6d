import Verif.Model.Csv
import Verif.Model.Yaml
/-! # `src/file.rs` and the file imports of `src/table.rs` -/

namespace Chanoma

/-- What a path names. -/
inductive Entry where
  /-- a readable regular file with these contents -/
  | file (b : List UInt8)
  /-- a regular file that cannot be opened -/
  | denied
  /-- a directory: it can be opened, but not read -/
  | dir
  deriving DecidableEq, Repr

/-- A readable regular file containing this text, encoded in UTF-8. -/
abbrev Entry.text (s : Str) : Entry := .file (strBytes s)

/-- The environment of a run.  All fields are arbitrary; theorems quantify over them.
Simplification: the environment does not change during a call. -/
structure World where
  /-- `env::var_os("CHANOMARC")` -/
  chanomarc : Option OsStr
  /-- `dirs::home_dir()` -/
  home : Option OsStr
  /-- `env::current_dir().ok()` -/
  cwd : Option OsStr
  /-- the file system -/
  entry : OsStr → Option Entry
  /-- `fs::canonicalize(path).ok()` -/
  canonicalize : OsStr → Option OsStr
  /-- `serde_yaml::from_reader(..).ok()` on the contents of a file -/
  parseYaml : List UInt8 → Option YValue

/-- `Path::is_file`. -/
def World.isFile (w : World) (p : OsStr) : Bool :=
  match w.entry p with
  | some (.file _) | some .denied => true
  | _ => false

/-- Items of one CSV record, `/repo/src/file.rs:26-30`. -/
def csvRecordItems (record : List Str) : Outcome (List Item) := do
  let to ← unwrap record.getLast?
  let lastIndex ← usub record.length 1
  (List.range lastIndex).foldlM (fun items i => do
    let f ← getIdx record i
    return items ++ [⟨f, to⟩]) []

/-- `/repo/src/file.rs:20-36`, `table_from_csv_path`. -/
def tableFromCsvPath (w : World) (path : OsStr) : Outcome Table :=
  match w.entry path with
  | some (.file b) => do
    let items ← (csvRecords b).foldlM (fun items record => do
      let record ← csvStringRecord record
      return items ++ (← csvRecordItems record)) []
    return Table.fromCorr items (.configurationFile path)
  | _ => .err .csvFileLoad

/-- `/repo/src/file.rs:45-52`, `to_csv_writer`: the text the writer produces. -/
def toCsvWriter (items : List Item) : Str :=
  (itemMap items).foldl (fun out e => out ++ csvWriteRecord (e.2 ++ [e.1])) []

/-- `serde_yaml::from_reader(File::open(path)?)?`, `/repo/src/file.rs:63` and `:91`. -/
def readYaml (w : World) (path : OsStr) : Outcome YValue :=
  match w.entry path with
  | some (.file b) => match w.parseYaml b with
    | some v => .ok v
    | none => .err .yamlFileLoad
  | some .dir => .err .yamlFileLoad
  | _ => .err .io

/-- The items of one `items` entry, `/repo/src/file.rs:67-73`. -/
def yamlEntryItems (key value : YValue) : Outcome (List Item) :=
  if value.isSequence then do
    let l ← unwrap value.asSequence
    l.mapM fun v => do
      let f ← unwrap v.asStr
      let t ← unwrap key.asStr
      return ⟨f, t⟩
  else do
    let f ← unwrap value.asStr
    let t ← unwrap key.asStr
    return [⟨f, t⟩]

/-- The loop of `table_from_yaml_path`, `/repo/src/file.rs:64-75`. -/
def yamlItems (data : YValue) : Outcome (List Item) :=
  match data.get (c! "items") with
  | some map => do
    let m ← unwrap map.asMapping
    m.foldlM (fun items e => do return items ++ (← yamlEntryItems e.1 e.2)) []
  | none => .ok []

/-- `/repo/src/file.rs:61-80`, `table_from_yaml_path`. -/
def tableFromYamlPath (w : World) (path : OsStr) : Outcome Table := do
  let data ← readYaml w path
  let items ← yamlItems data
  return Table.fromCorr items (.configurationFile path)

/-- The loop of `modifiers_from_yaml_path`, `/repo/src/file.rs:92-98`. -/
def yamlModifiers (σ : Oracle) (data : YValue) : Outcome (List ModifierKind) :=
  match data.get (c! "modifiers") with
  | some map => do
    let m ← unwrap map.asMapping
    m.foldlM (fun ms e => do return ms ++ [← ModifierKind.fromYaml σ e.1 e.2]) []
  | none => .ok []

/-- `/repo/src/file.rs:89-99`, `modifiers_from_yaml_path`. -/
def modifiersFromYamlPath (σ : Oracle) (w : World) (path : OsStr) : Outcome (List ModifierKind) := do
  let data ← readYaml w path
  yamlModifiers σ data

/-- `/repo/src/file.rs:101-124`, `to_serialized_corr` followed by `derive(Serialize)`: the
YAML document that is printed. -/
def toSerializedCorr (items : List Item) : YValue :=
  .mapping [(.string (c! "items"),
    .mapping ((itemMap items).map fun e => (.string e.1, .sequence (e.2.map .string))))]

/-- `/repo/src/table.rs:235-240`, `TableBuilder::from_csv_path`. -/
def TableBuilder.fromCsvPath (w : World) (path : OsStr) : Outcome TableBuilder :=
  match w.canonicalize path with
  | some p => do return ⟨← tableFromCsvPath w p⟩
  | none => .err .io

/-- `/repo/src/table.rs:221-226`, `TableBuilder::from_yaml_path`. -/
def TableBuilder.fromYamlPath (w : World) (path : OsStr) : Outcome TableBuilder :=
  match w.canonicalize path with
  | some p => do return ⟨← tableFromYamlPath w p⟩
  | none => .err .io

/-- `/repo/src/table.rs:250-254`, `TableBuilder::add_from_csv` (`&mut self`): the new state
of the builder and the result. -/
def TableBuilder.addFromCsv (σ : Oracle) (w : World) (b : TableBuilder) (path : OsStr) :
    TableBuilder × Outcome Unit :=
  match tableFromCsvPath w path with
  | .ok t => (⟨b.table.add σ t.corr⟩, .ok ())
  | .err e => (b, .err e)
  | .panic => (b, .panic)

/-- `/repo/src/table.rs:264-268`, `TableBuilder::add_from_yaml`. -/
def TableBuilder.addFromYaml (σ : Oracle) (w : World) (b : TableBuilder) (path : OsStr) :
    TableBuilder × Outcome Unit :=
  match tableFromYamlPath w path with
  | .ok t => (⟨b.table.add σ t.corr⟩, .ok ())
  | .err e => (b, .err e)
  | .panic => (b, .panic)

end Chanoma
