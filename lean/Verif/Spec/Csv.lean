import Verif.Model.Corr
/-! # Specification: CSV texts and their records -/

namespace Chanoma

/-- A text with every quote doubled. -/
def doubleQuotes (f : Str) : Str := f.flatMap fun c => if c = '"' then ['"', '"'] else [c]

/-- No separator and no line break. -/
def Plain (f : Str) : Prop := ∀ c ∈ f, c ≠ ',' ∧ c ≠ '\r' ∧ c ≠ '\n'

instance (f : Str) : Decidable (Plain f) := by unfold Plain; infer_instance

/-- `FieldText f x`: the text `x` stands for the field `f`: either `f` itself, if it has no
comma and no line break and does not start with a quote, or `f` in quotes with inner quotes
doubled.  Plain characters between the closing quote and the end of the field (not allowed in
well-formed CSV) belong to the field. -/
inductive FieldText : Str → Str → Prop
  | bare {f : Str} : Plain f → f.head? ≠ some '"' → FieldText f f
  | quoted (f : Str) {g : Str} : Plain g → g.head? ≠ some '"' →
      FieldText (f ++ g) ('"' :: doubleQuotes f ++ '"' :: g)

/-- `RecordText r x`: the text `x` consists of the fields of `r`, separated by commas. -/
inductive RecordText : List Str → Str → Prop
  | one {f x : Str} : FieldText f x → RecordText [f] x
  | cons {f x : Str} {r : List Str} {y : Str} : FieldText f x → RecordText r y →
      RecordText (f :: r) (x ++ ',' :: y)

/-- `LastText r x`: the same for the end of the file, where the closing quote of the last field may
be missing. -/
inductive LastText : List Str → Str → Prop
  | closed {r : List Str} {x : Str} : RecordText r x → LastText r x
  | unclosed (f : Str) : LastText [f] ('"' :: doubleQuotes f)
  | cons {f x : Str} {r : List Str} {y : Str} : FieldText f x → LastText r y →
      LastText (f :: r) (x ++ ',' :: y)

/-- Line ends. -/
def lineEnds : List Str := [['\n'], ['\r', '\n'], ['\r']]

/-- `CsvText rs s`: the text `s` consists of the records `rs`, each but possibly the last
followed by a line end, with any number of empty lines in between. -/
inductive CsvText : List (List Str) → Str → Prop
  | nil : CsvText [] []
  | empty {rs s e} : e ∈ lineEnds → CsvText rs s → CsvText rs (e ++ s)
  | record {r x e rs s} : RecordText r x → x ≠ [] → e ∈ lineEnds → CsvText rs s →
      CsvText (r :: rs) (x ++ e ++ s)
  | last {r x} : LastText r x → x ≠ [] → CsvText [r] x

/-! ### Files that are not text -/

/-- Bytes read as characters, one by one (ISO 8859-1). -/
def latin1 (b : List UInt8) : Str := b.map fun x => Char.ofNat x.toNat

/-- The UTF-8 encoding of the byte order mark. -/
def byteOrderMark : List UInt8 := [0xEF, 0xBB, 0xBF]

/-- `CsvFile b records`: the file contents `b` consist of these records of bytes, optionally after a
byte order mark.  As all characters with a meaning in CSV are ASCII, the records are those of the
contents read one byte at a time. -/
def CsvFile (b : List UInt8) (records : List (List (List UInt8))) : Prop :=
  ∃ body, (b = byteOrderMark ++ body ∨ (b = body ∧ ¬ byteOrderMark <+: b)) ∧
    CsvText (records.map (·.map latin1)) (latin1 body)

/-- `CsvRows b rows`: these are the records after the first one, and all of them are UTF-8. -/
def CsvRows (b : List UInt8) (rows : List (List Str)) : Prop :=
  ∃ records, CsvFile b records ∧ rows.map (·.map strBytes) = records.tail

/-- The items of one record: all cells but the last are replaced by the last. -/
def rowItems (record : List Str) : List Item :=
  match record.getLast? with
  | some to => record.dropLast.map fun f => ⟨f, to⟩
  | none => []

example : rowItems [c! "c", c! "sea", c! "see", c! "C"] =
    [⟨c! "c", c! "C"⟩, ⟨c! "sea", c! "C"⟩, ⟨c! "see", c! "C"⟩] := by decide +kernel
example : rowItems [c! "c"] = [] := by decide +kernel

end Chanoma
