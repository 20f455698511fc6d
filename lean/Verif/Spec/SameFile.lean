import Verif.Model.File
/-! # Specification: what a CSV file with a given text loads -/

namespace Chanoma

/-- A CSV file with this text loads as a table with exactly these items, in this order. -/
def LoadsItems (s : Str) (items : List Item) : Prop :=
  ∀ (w : World) (path : OsStr), w.entry path = some (.file (strBytes s)) →
    ∃ t, tableFromCsvPath w path = .ok t ∧ t.items = items

/-- The text is empty or ends in a line end. -/
def Complete (s : Str) : Prop := ∀ c, s.getLast? = some c → c = '\n' ∨ c = '\r'

/-- Every cell in quotes, with inner quotes doubled; the cells separated by commas. -/
def quotedLine (r : List Str) : Str :=
  [','].intercalate (r.map fun f => '"' :: f.flatMap (fun c => if c = '"' then ['"', '"'] else [c]) ++ ['"'])

example : quotedLine [c! "a", c! "b\"c"] = c! "\"a\",\"b\"\"c\"" := by decide

end Chanoma
