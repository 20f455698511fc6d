/-!
# The fragment of Rust's standard library that chanoma uses

Nothing in this file models chanoma itself: it fixes the meaning of the `std`
types and methods that occur in `/repo/src`.  The semantics is the documented one
of the Rust standard library; `usize` is modelled by `Nat` with checked
subtraction, strings by lists of Unicode scalar values.
-/

namespace Chanoma

/-- A Rust `String`/`&str`: a sequence of Unicode scalar values
(Lean's `Char` and Rust's `char` range over the same set). -/
abbrev Str := List Char

/-- `c! "abc"` is notation for the explicit list `['a', 'b', 'c']`. -/
syntax:max "c!" str : term
open Lean in
macro_rules
  | `(c! $s:str) => do
    let cs := (s.getString.toList.map fun c => Syntax.mkCharLit c).toArray
    `(([$cs,*] : List Char))

/-- `OsStr`, `Path`, `PathBuf` on Unix: arbitrary bytes. -/
abbrev OsStr := List UInt8

/-- `p! "abc"` is notation for the explicit list of the UTF-8 bytes of `abc`. -/
syntax:max "p!" str : term

macro_rules
  | `(p! $s:str) => do
    let bs := (s.getString.toUTF8.toList.map fun b => Lean.Syntax.mkNatLit b.toNat).toArray
    `(([$bs,*] : List UInt8))

/-- The errors of `/repo/src/error.rs:7-24`.  Payloads of foreign error types
(`csv::Error`, `serde_yaml::Error`, `io::Error`) are dropped. -/
inductive Error where
  | csvFileLoad
  | yamlFileLoad
  | rcFileLoad (path : OsStr)
  | unsupportedFileExtension (ext : Str)
  | modifierKindParse (msg : Str)
  | fileExtensionNotFoundInPath (path : OsStr)
  | fileExtensionCanNotConvertToStr (path : OsStr)
  | io
  deriving DecidableEq, Repr

/-- Result of running a Rust function: it returns (`Ok`), returns `Err`, or panics. -/
inductive Outcome (α : Type) where
  | ok (a : α)
  | err (e : Error)
  | panic
  deriving DecidableEq, Repr

namespace Outcome

/-- Sequencing: `?` on errors, unwinding on panics. -/
def bind {α β : Type} : Outcome α → (α → Outcome β) → Outcome β
  | ok a, f => f a
  | err e, _ => err e
  | panic, _ => panic

instance : Monad Outcome where
  pure := ok
  bind := bind

@[simp] theorem pure_eq {α : Type} (a : α) : (pure a : Outcome α) = ok a := rfl
@[simp] theorem ok_bind {α β : Type} (a : α) (f : α → Outcome β) : (ok a >>= f) = f a := rfl
@[simp] theorem err_bind {α β : Type} (e : Error) (f : α → Outcome β) :
    ((err e : Outcome α) >>= f) = err e := rfl
@[simp] theorem panic_bind {α β : Type} (f : α → Outcome β) :
    ((panic : Outcome α) >>= f) = panic := rfl
@[simp] theorem map_ok {α β : Type} (f : α → β) (a : α) : (f <$> (ok a : Outcome α)) = ok (f a) := rfl
@[simp] theorem map_err {α β : Type} (f : α → β) (e : Error) :
    (f <$> (err e : Outcome α)) = err e := rfl
@[simp] theorem map_panic {α β : Type} (f : α → β) : (f <$> (panic : Outcome α)) = panic := rfl

instance : LawfulMonad Outcome := LawfulMonad.mk'
  (id_map := by intro α x; cases x <;> rfl)
  (pure_bind := by intros; rfl)
  (bind_assoc := by intro α β γ x f g; cases x <;> rfl)

end Outcome

/-- `Option::unwrap`. -/
def unwrap {α : Type} : Option α → Outcome α
  | some a => .ok a
  | none => .panic

/-- `v[i] = x` on a `Vec` (used through `mem::replace(&mut v[i], x)`): panics out of bounds. -/
def setIdx {α : Type} (l : List α) (i : Nat) (x : α) : Outcome (List α) :=
  if i < l.length then .ok (l.set i x) else .panic

/-- `v[i]` on a `Vec`: panics out of bounds. -/
def getIdx {α : Type} (l : List α) (i : Nat) : Outcome α := unwrap l[i]?

/-- `usize` subtraction: underflow panics. -/
def usub (a b : Nat) : Outcome Nat := if b ≤ a then .ok (a - b) else .panic

/-! ### Hash collections -/

/-- The unspecified iteration order of a hash collection: some permutation of its
entries.  All theorems quantify over every `Oracle`. -/
structure Oracle where
  iter : {α : Type} → List α → List α
  iter_perm : ∀ {α : Type} (l : List α), (iter l).Perm l

/-- The oracle that iterates in insertion order. -/
def Oracle.insertion : Oracle := ⟨fun l => l, fun l => List.Perm.refl l⟩

/-- The oracle that iterates in reverse insertion order. -/
def Oracle.reversed : Oracle := ⟨fun l => l.reverse, fun l => List.reverse_perm l⟩

/-- A `HashMap<κ, ν>`: entries with distinct keys. -/
abbrev HMap (κ ν : Type) := List (κ × ν)

namespace HMap
variable {κ ν : Type} [DecidableEq κ]

/-- `HashMap::get`. -/
def get? : HMap κ ν → κ → Option ν
  | [], _ => none
  | (k', v) :: m, k => if k' = k then some v else get? m k

/-- `HashMap::insert`: overwrites. -/
def insert : HMap κ ν → κ → ν → HMap κ ν
  | [], k, v => [(k, v)]
  | (k', v') :: m, k, v => if k' = k then (k', v) :: m else (k', v') :: insert m k v

/-- `m.entry(k).or_insert_with(|| d)` followed by an in-place update `f`. -/
def entryUpdate (d : ν) (f : ν → ν) : HMap κ ν → κ → HMap κ ν
  | [], k => [(k, f d)]
  | (k', v') :: m, k => if k' = k then (k', f v') :: m else (k', v') :: entryUpdate d f m k

/-- `iter.collect::<HashMap<_, _>>()`: inserts the pairs in order. -/
def collect (l : List (κ × ν)) : HMap κ ν := l.foldl (fun m kv => insert m kv.1 kv.2) []

end HMap

/-- `HashSet::insert` on a duplicate-free list. -/
def hsetInsert {α : Type} [DecidableEq α] (s : List α) (a : α) : List α :=
  if a ∈ s then s else s ++ [a]

/-! ### Characters and strings -/

/-- `str::len`: number of UTF-8 bytes. -/
def strLen (s : Str) : Nat := (s.map Char.utf8Size).sum

/-- The UTF-8 bytes of a string, `str::as_bytes`. -/
def strBytes (s : Str) : List UInt8 := s.flatMap String.utf8EncodeChar

/-- The length of a UTF-8 sequence by its first byte. -/
def utf8SeqLen (b : UInt8) : Nat :=
  if b < 0x80 then 1 else if b < 0xE0 then 2 else if b < 0xF0 then 3 else 4

/-- The number a UTF-8 sequence stands for. -/
def utf8Number : List UInt8 → Nat
  | [a] => a.toNat
  | [a, b] => a.toNat % 32 * 64 + b.toNat % 64
  | [a, b, c] => a.toNat % 16 * 4096 + b.toNat % 64 * 64 + c.toNat % 64
  | [a, b, c, d] =>
    a.toNat % 8 * 262144 + b.toNat % 64 * 4096 + c.toNat % 64 * 64 + d.toNat % 64
  | _ => 0

/-- The first character of a byte sequence and the remaining bytes.  A sequence that is not the
encoding of the number it stands for (overlong, truncated, a surrogate, ...) is invalid. -/
def utf8Head : List UInt8 → Option (Char × List UInt8)
  | [] => none
  | b :: bs =>
    let seq := (b :: bs).take (utf8SeqLen b)
    let c := Char.ofNat (utf8Number seq)
    if String.utf8EncodeChar c = seq then some (c, (b :: bs).drop (utf8SeqLen b)) else none

/-- The loop of `strFromUtf8`; the first argument bounds the number of characters. -/
def strFromUtf8Go : Nat → List UInt8 → Option Str
  | _, [] => some []
  | 0, _ :: _ => none
  | n + 1, b => do
    let (c, rest) ← utf8Head b
    let s ← strFromUtf8Go n rest
    return c :: s

/-- `str::from_utf8(b).ok()`; it inverts `strBytes` (theorem `strFromUtf8_eq_some_iff`). -/
def strFromUtf8 (b : List UInt8) : Option Str := strFromUtf8Go b.length b

/-- `a <= b` on `str`: Rust compares the UTF-8 bytes lexicographically. -/
def bytesLe : List UInt8 → List UInt8 → Bool
  | [], _ => true
  | _ :: _, [] => false
  | a :: as, b :: bs => if a < b then true else if b < a then false else bytesLe as bs

/-- `<str as Ord>::le`. -/
def strLe (a b : Str) : Bool := bytesLe (strBytes a) (strBytes b)

/-- `str::char_indices`: each character with its byte offset. -/
def charIndicesFrom : Nat → Str → List (Nat × Char)
  | _, [] => []
  | off, c :: cs => (off, c) :: charIndicesFrom (off + c.utf8Size) cs

/-- `str::char_indices`. -/
def charIndices (s : Str) : List (Nat × Char) := charIndicesFrom 0 s

/-- `char::is_ascii_alphanumeric`. -/
def isAsciiAlphanumeric (c : Char) : Bool :=
  (48 ≤ c.toNat && c.toNat ≤ 57) || (65 ≤ c.toNat && c.toNat ≤ 90) ||
    (97 ≤ c.toNat && c.toNat ≤ 122)

/-- `char::is_whitespace`: the Unicode `White_Space` property. -/
def isWhitespace (c : Char) : Bool :=
  let n := c.toNat
  (9 ≤ n && n ≤ 13) || n == 0x20 || n == 0x85 || n == 0xA0 || n == 0x1680 ||
    (0x2000 ≤ n && n ≤ 0x200A) || n == 0x2028 || n == 0x2029 || n == 0x202F ||
    n == 0x205F || n == 0x3000

/-- `str::trim_start_matches(c)`. -/
def trimStartMatches (c : Char) (s : Str) : Str := s.dropWhile (· == c)

/-- `str::trim_end_matches(c)`. -/
def trimEndMatches (c : Char) (s : Str) : Str := (s.reverse.dropWhile (· == c)).reverse

/-- `str::trim_matches(c)`. -/
def trimMatches (c : Char) (s : Str) : Str := trimEndMatches c (trimStartMatches c s)

/-- `str::trim`: strips Unicode white space on both ends. -/
def strTrim (s : Str) : Str :=
  ((s.dropWhile isWhitespace).reverse.dropWhile isWhitespace).reverse

/-- `str::strip_prefix`. -/
def stripPrefix : Str → Str → Option Str
  | [], s => some s
  | _ :: _, [] => none
  | p :: ps, c :: cs => if p = c then stripPrefix ps cs else none

/-- `str::strip_suffix(c)` for a single character. -/
def stripSuffixChar (c : Char) (s : Str) : Option Str :=
  if s.getLast? = some c then some s.dropLast else none

/-- `str::split(c)` collected into a vector (never empty); also used to split paths. -/
def splitChar {α : Type} [DecidableEq α] (c : α) : List α → List (List α)
  | [] => [[]]
  | x :: xs =>
    if x = c then [] :: splitChar c xs
    else match splitChar c xs with
      | [] => [[x]]
      | p :: ps => (x :: p) :: ps

/-- Scan for a non-empty pattern; `skip` counts characters of a match still to be passed over. -/
def replaceGo (pat to : Str) : Nat → Str → Str
  | _, [] => []
  | skip + 1, _ :: cs => replaceGo pat to skip cs
  | 0, c :: cs =>
    if pat.isPrefixOf (c :: cs) then to ++ replaceGo pat to (pat.length - 1) cs
    else c :: replaceGo pat to 0 cs

/-- `str::replace(pat, to)`: replaces the non-overlapping matches found from left to
right; the empty pattern matches at every character boundary. -/
def strReplace (pat to : Str) (s : Str) : Str :=
  match pat with
  | [] => to ++ s.flatMap (fun c => c :: to)
  | _ :: _ => replaceGo pat to 0 s

end Chanoma
