import Verif.Model.Configuration
/-! # Specification: names and extensions of paths (`/` is 0x2F and `.` is 0x2E) -/

namespace Chanoma

/-- What may follow the last component of a path without changing it: any sequence of `/` and
`/.`. -/
inductive Trailing : OsStr → Prop
  | nil : Trailing []
  | slash {t : OsStr} : Trailing t → Trailing (0x2F :: t)
  | dot {t : OsStr} : Trailing t → Trailing (0x2F :: 0x2E :: t)

/-- The last component of the path is `name`. -/
def HasName (path name : OsStr) : Prop :=
  ∃ dir tail, path = dir ++ name ++ tail ∧ (dir = [] ∨ dir.getLast? = some 0x2F) ∧ Trailing tail ∧
    0x2F ∉ name ∧ name ≠ [] ∧ name ≠ [0x2E] ∧ name ≠ [0x2E, 0x2E]

/-- The path has the extension `ext`: the last component of the path consists of something
non-empty, a dot, and `ext`, which is free of dots. -/
def HasExt (path ext : OsStr) : Prop :=
  ∃ stem, HasName path (stem ++ 0x2E :: ext) ∧ stem ≠ [] ∧ 0x2E ∉ ext

/-- The bytes are valid UTF-8. -/
def IsUtf8 (b : List UInt8) : Prop := ∃ s : Str, b = strBytes s

/-- The value of the environment variable `CHANOMARC` counts as set: it is there and valid UTF-8. -/
def ChanomarcSet (w : World) : Prop := ∃ v, w.chanomarc = some v ∧ IsUtf8 v

/-- The file `name` in the directory `dir`. -/
def joinPath (dir name : OsStr) : OsStr :=
  if dir = [] ∨ dir.getLast? = some 0x2F then dir ++ name else dir ++ 0x2F :: name

/-- The path names a regular file. -/
def IsFile (w : World) (path : OsStr) : Prop :=
  (∃ b, w.entry path = some (.file b)) ∨ w.entry path = some .denied

/-- The documented places of rc files, in order. -/
def rcCandidates (w : World) : List OsStr :=
  let dirs := (match w.home with
      | some h => [joinPath h (p! ".config/chanoma"), h]
      | none => []) ++ w.cwd.toList
  dirs.flatMap fun d =>
    [joinPath d (p! "chanomarc.csv"), joinPath d (p! "chanomarc.yaml"),
     joinPath d (p! ".chanomarc.csv"), joinPath d (p! ".chanomarc.yaml")]

end Chanoma
