import Verif.Spec.Text
import Verif.Spec.Width
/-! # Specifications: simultaneous replacement, and the meaning of neologdn -/

namespace Chanoma

/-- `Replaced rules text out`: `out` is obtained by scanning `text` from left to right,
replacing the key of a rule found at the current place by its value and continuing after it;
a character at which no key starts is kept. -/
inductive Replaced (rules : List (Str × Str)) : Str → Str → Prop
  | nil : Replaced rules [] []
  | hit {k v t o : Str} : (k, v) ∈ rules → k ≠ [] → Replaced rules t o →
      Replaced rules (k ++ t) (v ++ o)
  | keep {c : Char} {t o : Str} : (∀ r ∈ rules, ¬ r.1 <+: c :: t) → Replaced rules t o →
      Replaced rules (c :: t) (c :: o)

/-- An occurrence of `k'` can start inside an occurrence of `k`: some non-empty end of `k` is a
beginning of `k'` or begins with `k'`. -/
def CanStartIn (k' k : Str) : Prop := ∃ s, s ≠ [] ∧ s <:+ k ∧ (s <+: k' ∨ k' <+: s)

/-- The rules do not interfere: no key is empty; the key of a rule cannot start in a key or in a
value of another rule; and no value can start in a key of another rule, or, if it is empty (so that
the rule deletes and joins what was apart), the keys of all other rules are single characters. -/
def NonInterfering (rules : List (Str × Str)) : Prop :=
  (∀ r ∈ rules, r.1 ≠ []) ∧
  ∀ r ∈ rules, ∀ r' ∈ rules, r.1 ≠ r'.1 →
    ¬ CanStartIn r'.1 r.1 ∧ ¬ CanStartIn r'.1 r.2 ∧
    if r.2 = [] then r'.1.length = 1 else ¬ CanStartIn r.2 r'.1

/-- No key overlaps another one or itself: a key can start inside a key only if it is the same one, at
its beginning. -/
def SeparateKeys (rules : List (Str × Str)) : Prop :=
  ∀ r ∈ rules, ∀ r' ∈ rules, ∀ s, s ≠ [] → s <:+ r.1 → s <+: r'.1 ∨ r'.1 <+: s → r = r' ∧ s = r.1

/-- The text `v`, put in the place of another one, can become part of an occurrence of `k`: `k` can
start in `v`, or `v` in `k`, or `v` is empty and `k` has more than one character. -/
def CanFeed (v k : Str) : Prop :=
  CanStartIn k v ∨ v ≠ [] ∧ CanStartIn v k ∨ v = [] ∧ 1 < k.length

/-- The character composed from a kana and the sound mark after it, by code point: the voiced
kana is the next code point, the half-voiced one the one after that; `う` and `ウ` are special. -/
def voiced (a mark : Char) : Option Char :=
  if mark = '゛' then
    if a ∈ c! "かきくけこさしすせそたちつてとはひふへほカキクケコサシスセソタチツテトハヒフヘホ" then
      some (Char.ofNat (a.toNat + 1))
    else if a = 'う' then some 'ゔ'
    else if a = 'ウ' then some 'ヴ'
    else none
  else if mark = '゜' then
    if a ∈ c! "はひふへほハヒフヘホ" then some (Char.ofNat (a.toNat + 2)) else none
  else none

/-- Compose every kana with the sound mark directly after it. -/
def composeMarks : Str → Str
  | a :: m :: t =>
    match voiced a m with
    | some b => b :: composeMarks t
    | none => a :: composeMarks (m :: t)
  | t => t

/-- The tildes that neologdn deletes: `~`, U+223C, U+223E, U+301C, U+3030, U+FF5E. -/
def tildeChars : List Char := ['~', '∼', '∾', '〜', '〰', '～']

/-- The meaning of neologdn normalisation. -/
def neologdnSpec (text : Str) : Str :=
  composeMarks ((spaceRule (squeeze 'ー' (text.map neologdnFold))).filter (· ∉ tildeChars))

example : neologdnSpec (c! "  ﾊﾟﾊﾞ　パハ゜ガカ゛〜スーーパー  Ｌinux v １") = c! "ハﾟハﾞパパガガスーパーLinux v 1" := by
  decide +kernel

end Chanoma
