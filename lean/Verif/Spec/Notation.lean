import Verif.Spec.Config
import Verif.Spec.Parse
import Verif.Model.Macros
/-! # Specification: the notations for a modifier as a string and as a macro -/

namespace Chanoma

/-- White space, a character that is not white space, and further text that does not matter, free
of the separators `seps`: how a character is written in a list. -/
inductive WrittenChar (seps : List Char) : Str → Char → Prop
  | mk (blank : Str) (c : Char) (rest : Str) : (∀ b ∈ blank, b ∈ whiteSpace) →
      c ∉ whiteSpace → (∀ s ∈ seps, s ∉ blank ++ c :: rest) → WrittenChar seps (blank ++ c :: rest) c

/-- The characters `cs`, written as the texts `ss`. -/
inductive WrittenChars (seps : List Char) : List Str → List Char → Prop
  | nil : WrittenChars seps [] []
  | cons {s c ss cs} : WrittenChar seps s c → WrittenChars seps ss cs → WrittenChars seps (s :: ss) (c :: cs)

/-- Pairs, written as texts `a: b`. -/
inductive WrittenPairs (seps : List Char) : List Str → List (Char × Char) → Prop
  | nil : WrittenPairs seps [] []
  | cons {s t a b ss ps} : WrittenChar seps s a → WrittenChar seps t b → WrittenPairs seps ss ps →
      WrittenPairs seps ((s ++ ':' :: t) :: ss) ((a, b) :: ps)

/-- How a modifier is written as a string. -/
inductive Written : Str → Step → Prop
  | convert {ss : List Str} {ps : List (Char × Char)} : ss ≠ [] → WrittenPairs [',', ':'] ss ps →
      Written (c! "character_converter(" ++ ([','].intercalate ss ++ [')'])) (.convert ps)
  | eliminate {ss : List Str} {cs : List Char} : ss ≠ [] → WrittenChars [','] ss cs →
      Written (c! "character_eliminator(" ++ ([','].intercalate ss ++ [')'])) (.eliminate cs)
  | reduce (c : Char) (rest : Str) :
      Written (c! "consecutive_character_reducer(" ++ (c :: rest ++ [')'])) (.reduce c)
  | ligature {k v : Str} : ',' ∉ k → ',' ∉ v →
      Written (c! "ligature_translator(" ++ (k ++ ',' :: v ++ [')'])) (.ligature [(k, v)])
  | spaces : Written (c! "dotted_space_eliminator") .spaces
  | trim : Written (c! "trim") .trim
  | neologdn : Written (c! "neologdn") .neologdn

/-- How a modifier is made in a program by a macro or by `from_char`. -/
inductive MadeByMacro : ModifierKind → Step → Prop
  | convert (l : List (Char × Char)) :
      MadeByMacro (.characterConverter (characterConverterMacro l)) (.convert l)
  | eliminate (cs : List Char) :
      MadeByMacro (.characterEliminator (characterEliminatorMacro cs)) (.eliminate cs)
  | eliminateOne (c : Char) : MadeByMacro (.characterEliminator (.fromChar c)) (.eliminate [c])
  | reduce (c : Char) :
      MadeByMacro (.consecutiveCharacterReducer (consecutiveCharacterReducerMacro c)) (.reduce c)
  | ligature (rules : List (Str × Str)) :
      MadeByMacro (.ligatureTranslator (ligatureTranslatorMacro rules)) (.ligature rules)

end Chanoma
