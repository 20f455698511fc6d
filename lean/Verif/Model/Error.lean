import Verif.Model.Cli
/-! # `src/error.rs`: the texts of the errors -/

namespace Chanoma

/-- The length of the invalid sequence at the start of bytes that do not start with a character
(`Utf8Chunks` of the standard library): the longest start of a character, at least one byte. -/
def utf8InvalidLen : List UInt8 → Nat
  | b0 :: b1 :: rest =>
    let second := if b0 = 0xE0 then 0xA0 ≤ b1 && b1 ≤ 0xBF
      else if b0 = 0xED then 0x80 ≤ b1 && b1 ≤ 0x9F
      else if b0 = 0xF0 then 0x90 ≤ b1 && b1 ≤ 0xBF
      else if b0 = 0xF4 then 0x80 ≤ b1 && b1 ≤ 0x8F
      else (0xE1 ≤ b0 && b0 ≤ 0xF3) && 0x80 ≤ b1 && b1 ≤ 0xBF
    if second then
      match rest with
      | b2 :: _ => if 0xF0 ≤ b0 && 0x80 ≤ b2 && b2 ≤ 0xBF then 3 else 2
      | [] => 2
    else 1
  | _ => 1

/-- The loop of `pathDisplay`; the first argument bounds the number of steps. -/
def pathDisplayGo : Nat → OsStr → Str
  | _, [] => []
  | 0, _ :: _ => []
  | n + 1, b => match utf8Head b with
    | some (c, rest) => c :: pathDisplayGo n rest
    | none => '�' :: pathDisplayGo n (b.drop (utf8InvalidLen b))

/-- `Path::display`: the text of a path, with `U+FFFD` for what is not valid UTF-8. -/
def pathDisplay (b : OsStr) : Str := pathDisplayGo b.length b

/-- The texts of the errors of other crates that an error carries (`csv::Error`,
`serde_yaml::Error`, `io::Error`); they are not modelled. -/
structure ForeignTexts where
  csv : Str
  yaml : Str
  io : Str

/-- `/repo/src/error.rs:7-24`, `Display` as derived by `thiserror`. -/
def Error.text (foreign : ForeignTexts) : Error → Str
  | .csvFileLoad => c! "csv ファイルの読み込みに失敗しました: " ++ foreign.csv
  | .yamlFileLoad => c! "yaml ファイルの読み込みに失敗しました: " ++ foreign.yaml
  | .rcFileLoad path => c! "指定された設定ファイルが存在しません: " ++ pathDisplay path
  | .unsupportedFileExtension ext => c! "未対応のファイル拡張子が指定されています: " ++ ext
  | .modifierKindParse msg => c! "存在しない Modifier が指定されています: " ++ msg
  | .fileExtensionNotFoundInPath path => c! "指定したパスに拡張子が含まれていません: " ++ pathDisplay path
  | .fileExtensionCanNotConvertToStr path => c! "拡張子の文字列を str に変換できません: " ++ pathDisplay path
  | .io => foreign.io

/-- What a Python call gives: a value, an `OSError` with a text, or a `PanicException`. -/
inductive PyResult (α : Type) where
  | ok (a : α)
  | osError (text : Str)
  | panicException

/-- `map_err(|e| PyOSError::new_err(e.to_string()))` in `/repo/bindings/python3/src/lib.rs:31-34,141-146`;
`pyo3` turns panics into exceptions. -/
def Outcome.toPy {α : Type} (foreign : ForeignTexts) : Outcome α → PyResult α
  | .ok a => .ok a
  | .err e => .osError (e.text foreign)
  | .panic => .panicException

end Chanoma
