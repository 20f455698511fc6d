import Verif.Model.Parse
/-! # The macros that build modifiers, and the remaining constructors -/

namespace Chanoma

/-- `/repo/src/modifier/character_eliminator.rs:73-77`, `CharacterEliminator::from_char`. -/
def CharacterEliminator.fromChar (c : Char) : CharacterEliminator := ⟨hsetInsert [] c⟩

/-- `/repo/src/modifier/character_eliminator.rs:88-98`, `character_eliminator!['a', 'b']`: the
characters are pushed to a vector. -/
def characterEliminatorMacro (cs : List Char) : CharacterEliminator :=
  .fromChars (cs.foldl (fun v c => v ++ [c]) [])

/-- `/repo/src/modifier/character_converter.rs:174-184`, `character_converter!{'D' => 'd'}`: the
pairs are inserted into a map, one after the other. -/
def characterConverterMacro (l : List (Char × Char)) : CharacterConverter :=
  .fromMap (l.foldl (fun m kv => m.insert kv.1 kv.2) ([] : HMap Char Char))

/-- `/repo/src/modifier/consecutive_character_reducer.rs:109-115`, `consecutive_character_reducer!('ー')`. -/
def consecutiveCharacterReducerMacro (c : Char) : ConsecutiveCharacterReducer := ⟨c⟩

/-- `/repo/src/modifier/ligature_translator.rs:83-93`, `ligature_translator!{"ハ゜" => 'パ'}`: the
rules are inserted into a map, one after the other.  Simplified: the arguments are strings
(`to_string` is applied to them). -/
def ligatureTranslatorMacro (l : List (Str × Str)) : LigatureTranslator :=
  ⟨l.foldl (fun m kv => m.insert kv.1 kv.2) ([] : HMap Str Str)⟩

/-- `/repo/src/modifier/trim.rs:65-76`, `Trim::from_str`. -/
def Trim.fromStr (s : Str) : Outcome ModifierKind :=
  if s.isEmpty then .ok .trim else .err (.modifierKindParse (c! "Cannot specify a value."))

/-- `/repo/src/modifier/dotted_space_eliminator.rs:61-70`, `DottedSpaceEliminator::from_str`.
Simplified: the error is not wrapped in `anyhow::Error`. -/
def DottedSpaceEliminator.fromStr (s : Str) : Outcome ModifierKind :=
  if s.isEmpty then .ok .dottedSpaceEliminator
  else .err (.modifierKindParse (c! "Cannot specify a value."))

/-- `/repo/src/modifier/neologdn.rs:61-72`, `Neologdn::from_str`. -/
def Neologdn.fromStr (σ : Oracle) (s : Str) : Outcome ModifierKind :=
  if s.isEmpty then do return .neologdn (← Neologdn.new σ)
  else .err (.modifierKindParse (c! "Cannot specify a value."))

end Chanoma
