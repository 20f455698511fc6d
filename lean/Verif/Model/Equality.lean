import Verif.Model.Modifier
/-! # Model: `==` on modifiers

`PartialEq` is derived for the modifiers and for `ModifierKind`: equality field by field, down to the
`HashMap`s and the `HashSet`. -/

namespace Chanoma

/-- `==` of `std::collections::HashMap`, used by the derives at
`/repo/src/modifier/character_converter.rs:36` and `/repo/src/modifier/ligature_translator.rs:10`:
as many entries, and every entry of the first map is looked up in the second.  The order in which the
entries are visited is left out: the result of `all` does not depend on it. -/
def HMap.eq {κ ν : Type} [DecidableEq κ] [DecidableEq ν] (a b : HMap κ ν) : Bool :=
  a.length == b.length && a.all fun e =>
    match b.get? e.1 with
    | some v => e.2 == v
    | none => false

/-- `==` of `std::collections::HashSet`, used by the derive at
`/repo/src/modifier/character_eliminator.rs:10`: as many members, and every member of the first set is
one of the second. -/
def hsetEq {α : Type} [DecidableEq α] (a b : List α) : Bool :=
  a.length == b.length && a.all fun x => decide (x ∈ b)

/-- `/repo/src/modifier/character_converter.rs:36`, derived `eq`. -/
def CharacterConverter.eq (a b : CharacterConverter) : Bool := a.itemsMap.eq b.itemsMap

/-- `/repo/src/modifier/character_eliminator.rs:10`, derived `eq`. -/
def CharacterEliminator.eq (a b : CharacterEliminator) : Bool := hsetEq a.chars b.chars

/-- `/repo/src/modifier/consecutive_character_reducer.rs:11`, derived `eq`. -/
def ConsecutiveCharacterReducer.eq (a b : ConsecutiveCharacterReducer) : Bool := a.c == b.c

/-- `/repo/src/modifier/ligature_translator.rs:10`, derived `eq`. -/
def LigatureTranslator.eq (a b : LigatureTranslator) : Bool := a.map.eq b.map

/-- `/repo/src/modifier/neologdn.rs:14`, derived `eq`: field by field (the field of the unit type
`DottedSpaceEliminator` is dropped, as in the structure). -/
def Neologdn.eq (a b : Neologdn) : Bool :=
  a.characterConverter.eq b.characterConverter && a.consecutive.eq b.consecutive &&
    a.characterEliminator.eq b.characterEliminator && a.ligatureTranslator.eq b.ligatureTranslator

/-- `/repo/src/modifier_kind.rs:13`, derived `eq`: the same variant with equal contents
(`dotted_space_eliminator.rs:10` and `trim.rs:10` are unit types). -/
def ModifierKind.eq : ModifierKind → ModifierKind → Bool
  | .characterConverter a, .characterConverter b => a.eq b
  | .characterEliminator a, .characterEliminator b => a.eq b
  | .consecutiveCharacterReducer a, .consecutiveCharacterReducer b => a.eq b
  | .dottedSpaceEliminator, .dottedSpaceEliminator => true
  | .ligatureTranslator a, .ligatureTranslator b => a.eq b
  | .trim, .trim => true
  | .neologdn a, .neologdn b => a.eq b
  | _, _ => false

end Chanoma
