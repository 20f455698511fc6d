import Verif.Model.Modifier
/-! # The `FromStr` implementations of the modifiers and of `ModifierKind` -/

namespace Chanoma

/-- `/repo/src/modifier/character_converter.rs:125-136`: one comma-separated entry. -/
def converterEntry (st : Str) : Option (Char × Char) :=
  match (splitChar ':' (strTrim st)).filterMap (fun c => (strTrim c).head?) with
  | [a, b] => some (a, b)
  | _ => none

/-- `/repo/src/modifier/character_converter.rs:120-146`, `CharacterConverter::from_str`. -/
def CharacterConverter.fromStr (s : Str) : Outcome CharacterConverter :=
  let chars := (splitChar ',' s).filterMap converterEntry
  if chars.isEmpty then .err (.modifierKindParse (c! "specified empty chars."))
  else .ok (.fromMap (HMap.collect chars))

/-- `/repo/src/modifier/character_eliminator.rs:52-62`, `CharacterEliminator::from_str`. -/
def CharacterEliminator.fromStr (s : Str) : Outcome CharacterEliminator :=
  let chars := (splitChar ',' s).filterMap (fun st => (strTrim st).head?)
  if chars.isEmpty then .err (.modifierKindParse (c! "require value."))
  else .ok (.fromChars chars)

/-- `/repo/src/modifier/consecutive_character_reducer.rs:91-94`,
`ConsecutiveCharacterReducer::from_str`. -/
def ConsecutiveCharacterReducer.fromStr (s : Str) : Outcome ConsecutiveCharacterReducer := do
  let c ← unwrap s.head?
  return ⟨c⟩

/-- `/repo/src/modifier/ligature_translator.rs:52-68`, `LigatureTranslator::from_str`. -/
def LigatureTranslator.fromStr (s : Str) : Outcome LigatureTranslator :=
  match splitChar ',' s with
  | [f, t] => .ok ⟨HMap.collect [(f, t)]⟩
  | _ => .err (.modifierKindParse (c! "Only two values."))

/-- `/repo/src/modifier_kind.rs:44-48` (and 55-59, 64-68, 73-77): the text between a known
`name(` and the final `)`; both `unwrap`s can panic. -/
def parenArg (pre s : Str) : Outcome Str := do
  let s ← unwrap (stripPrefix pre s)
  unwrap (stripSuffixChar ')' s)

/-- `/repo/src/modifier_kind.rs:34-85`, `ModifierKind::from_str`. -/
def ModifierKind.fromStr (σ : Oracle) (s : Str) : Outcome ModifierKind :=
  if s = c! "neologdn" then do
    let n ← Neologdn.new σ
    return .neologdn n
  else if s = c! "trim" then .ok .trim
  else if s = c! "dotted_space_eliminator" then .ok .dottedSpaceEliminator
  else if (c! "consecutive_character_reducer(").isPrefixOf s then do
    let x ← ConsecutiveCharacterReducer.fromStr (← parenArg (c! "consecutive_character_reducer(") s)
    return .consecutiveCharacterReducer x
  else if (c! "ligature_translator(").isPrefixOf s then do
    let x ← LigatureTranslator.fromStr (← parenArg (c! "ligature_translator(") s)
    return .ligatureTranslator x
  else if (c! "character_eliminator(").isPrefixOf s then do
    let x ← CharacterEliminator.fromStr (← parenArg (c! "character_eliminator(") s)
    return .characterEliminator x
  else if (c! "character_converter(").isPrefixOf s then do
    let x ← CharacterConverter.fromStr (← parenArg (c! "character_converter(") s)
    return .characterConverter x
  else .err (.modifierKindParse (c! "parse error."))

end Chanoma
