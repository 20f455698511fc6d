import Verif.Model.Corr
/-!
# The CSV dialect of the `csv` crate (not part of chanoma)

`csv::ReaderBuilder::new().flexible(true)` and `csv::WriterBuilder::new().flexible(true)`
with all other settings at their defaults: delimiter `,`, quote `"`, quotes doubled inside
quoted fields, record terminator any of `\r`, `\n`, `\r\n`, empty lines skipped, no
trimming, no comments, a leading byte order mark skipped.  Written from the documentation
of the crate and of `csv-core`; its source is not part of `/repo`.  The reader works on
bytes.  Simplification: the writer is modelled on characters; as all special characters are
ASCII, it prints the same bytes.
-/

namespace Chanoma

/-- States of the reader automaton (`csv_core::Reader`), without the ones that are left
without consuming input.  The state after `\r` is merged with `startRecord`: both skip a
following `\n`. -/
inductive CsvState where
  | startRecord
  | startField
  | inField
  | inQuoted
  | inDoubleQuote
  deriving DecidableEq, Repr

/-- The reader automaton; `cur` is the field and `fields` the record read so far.  Special bytes:
`"` is 0x22, `,` is 0x2C, `\r` is 0x0D and `\n` is 0x0A. -/
def csvGo : CsvState → List UInt8 → List (List UInt8) → List UInt8 → List (List (List UInt8))
  | .startRecord, _, _, [] => []
  | _, cur, fields, [] => [fields ++ [cur]]
  | st, cur, fields, b :: bs =>
    match st with
    | .inQuoted =>
      if b = 0x22 then csvGo .inDoubleQuote cur fields bs
      else csvGo .inQuoted (cur ++ [b]) fields bs
    | .startRecord =>
      if b = 0x0D ∨ b = 0x0A then csvGo .startRecord [] [] bs
      else if b = 0x22 then csvGo .inQuoted [] [] bs
      else if b = 0x2C then csvGo .startField [] [[]] bs
      else csvGo .inField [b] [] bs
    | .startField =>
      if b = 0x22 then csvGo .inQuoted [] fields bs
      else if b = 0x2C then csvGo .startField [] (fields ++ [[]]) bs
      else if b = 0x0D ∨ b = 0x0A then (fields ++ [[]]) :: csvGo .startRecord [] [] bs
      else csvGo .inField [b] fields bs
    | .inField =>
      if b = 0x2C then csvGo .startField [] (fields ++ [cur]) bs
      else if b = 0x0D ∨ b = 0x0A then (fields ++ [cur]) :: csvGo .startRecord [] [] bs
      else csvGo .inField (cur ++ [b]) fields bs
    | .inDoubleQuote =>
      if b = 0x22 then csvGo .inQuoted (cur ++ [b]) fields bs
      else if b = 0x2C then csvGo .startField [] (fields ++ [cur]) bs
      else if b = 0x0D ∨ b = 0x0A then (fields ++ [cur]) :: csvGo .startRecord [] [] bs
      else csvGo .inField (cur ++ [b]) fields bs

/-- All records of a CSV file, including the first one; a UTF-8 byte order mark is skipped. -/
def csvParse (b : List UInt8) : List (List (List UInt8)) :=
  csvGo .startRecord [] []
    (match b with
      | 0xEF :: 0xBB :: 0xBF :: bs => bs
      | _ => b)

/-- `Reader::byte_records()` with the default `has_headers(true)`: the first record is not
returned. -/
def csvRecords (b : List UInt8) : List (List (List UInt8)) := (csvParse b).tail

/-- One step of `Reader::records()`: a record with a field that is not valid UTF-8 is an error
(`csv::ErrorKind::Utf8`).  The first record, which is not returned, is not checked. -/
def csvStringRecord (r : List (List UInt8)) : Outcome (List Str) :=
  r.mapM fun f => match strFromUtf8 f with
    | some s => .ok s
    | none => .err .csvFileLoad

/-- `QuoteStyle::Necessary`: must the writer quote this field? -/
def csvNeedsQuotes (f : Str) : Bool :=
  f.any fun c => c == ',' || c == '"' || c == '\r' || c == '\n'

/-- One field as the writer prints it. -/
def csvWriteField (f : Str) : Str :=
  if csvNeedsQuotes f then
    '"' :: f.flatMap (fun c => if c = '"' then ['"', '"'] else [c]) ++ ['"']
  else f

/-- `Writer::write_record`: a record that would be empty is written as `""`. -/
def csvWriteRecord (r : List Str) : Str :=
  let body := (r.map csvWriteField).intersperse [','] |>.flatten
  (if body.isEmpty then ['"', '"'] else body) ++ ['\n']

end Chanoma
