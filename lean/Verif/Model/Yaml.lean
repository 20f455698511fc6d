import Verif.Model.Parse
/-!
# YAML values (`serde_yaml::Value`) and the `ModifierFromYamlValue` implementations

Only the value type of `serde_yaml` is modelled; its parser and printer are not
(see `World.parseYaml` in `Verif/Model/File.lean`).
-/

namespace Chanoma

/-- `serde_yaml::Value` (version 0.8).  Numbers carry only their text, since chanoma never
looks at them.  A mapping is the list of its entries in iteration order. -/
inductive YValue where
  | null
  | bool (b : Bool)
  | number (repr : Str)
  | string (s : Str)
  | sequence (l : List YValue)
  | mapping (l : List (YValue × YValue))

namespace YValue

/-- `Value::as_str`. -/
def asStr : YValue → Option Str
  | string s => some s
  | _ => none

/-- `Value::as_sequence`. -/
def asSequence : YValue → Option (List YValue)
  | sequence l => some l
  | _ => none

/-- `Value::as_mapping`. -/
def asMapping : YValue → Option (List (YValue × YValue))
  | mapping l => some l
  | _ => none

/-- `Value::is_null`. -/
def isNull : YValue → Bool
  | null => true
  | _ => false

/-- `Value::is_sequence`. -/
def isSequence : YValue → Bool
  | sequence _ => true
  | _ => false

/-- `Value::get(key)` with a string key: `None` unless the value is a mapping. -/
def get (key : Str) : YValue → Option YValue
  | mapping l => (l.find? fun e => e.1.asStr == some key).map Prod.snd
  | _ => none

end YValue

/-- The first character of a string value, `v.as_str().unwrap().chars().next().unwrap()`. -/
def yamlChar (v : YValue) : Outcome Char := do
  let s ← unwrap v.asStr
  unwrap s.head?

/-- `/repo/src/modifier/character_converter.rs:103-115`, `CharacterConverter::from_yaml_value`. -/
def CharacterConverter.fromYaml (v : YValue) : Outcome CharacterConverter := do
  let m ← unwrap v.asMapping
  let l ← m.mapM fun e => do
    let k ← yamlChar e.1
    let v ← yamlChar e.2
    return (k, v)
  return .fromMap (HMap.collect l)

/-- `/repo/src/modifier/character_eliminator.rs:39-47`, `CharacterEliminator::from_yaml_value`. -/
def CharacterEliminator.fromYaml (v : YValue) : Outcome CharacterEliminator := do
  let l ← unwrap v.asSequence
  let chars ← l.mapM yamlChar
  return .fromChars chars

/-- `/repo/src/modifier/consecutive_character_reducer.rs:84-86`, `from_yaml_value`. -/
def ConsecutiveCharacterReducer.fromYaml (v : YValue) : Outcome ConsecutiveCharacterReducer := do
  let s ← unwrap v.asStr
  ConsecutiveCharacterReducer.fromStr s

/-- `/repo/src/modifier/ligature_translator.rs:35-47`, `LigatureTranslator::from_yaml_value`. -/
def LigatureTranslator.fromYaml (v : YValue) : Outcome LigatureTranslator := do
  let m ← unwrap v.asMapping
  let l ← m.mapM fun e => do
    let k ← unwrap e.1.asStr
    let v ← unwrap e.2.asStr
    return (k, v)
  return ⟨HMap.collect l⟩

/-- `/repo/src/modifier/trim.rs:53-63`, `Trim::from_yaml_value`: only null is accepted (`Trim` has no fields). -/
def trimFromYaml (v : YValue) : Outcome Unit :=
  if v.isNull then .ok () else .err (.modifierKindParse (c! "Cannot specify a value."))

/-- `/repo/src/modifier/dotted_space_eliminator.rs:49-59`, `DottedSpaceEliminator::from_yaml_value`: only null is
accepted (`DottedSpaceEliminator` has no fields). -/
def dottedFromYaml (v : YValue) : Outcome Unit :=
  if v.isNull then .ok () else .err (.modifierKindParse (c! "Cannot specify a value."))

/-- `/repo/src/modifier/neologdn.rs:49-59`, `Neologdn::from_yaml_value`: only null is accepted. -/
def Neologdn.fromYaml (σ : Oracle) (v : YValue) : Outcome Neologdn :=
  if v.isNull then Neologdn.new σ else .err (.modifierKindParse (c! "Cannot specify a value."))

/-- `/repo/src/modifier_kind.rs:115-142`, `ModifierKind::from_yaml_key_value`. -/
def ModifierKind.fromYaml (σ : Oracle) (key value : YValue) : Outcome ModifierKind := do
  let k ← unwrap key.asStr
  if k = c! "character_converter" then
    return .characterConverter (← CharacterConverter.fromYaml value)
  else if k = c! "character_eliminator" then
    return .characterEliminator (← CharacterEliminator.fromYaml value)
  else if k = c! "consecutive_character_reducer" then
    return .consecutiveCharacterReducer (← ConsecutiveCharacterReducer.fromYaml value)
  else if k = c! "ligature_translator" then
    return .ligatureTranslator (← LigatureTranslator.fromYaml value)
  else if k = c! "dotted_space_eliminator" then do
    dottedFromYaml value
    return .dottedSpaceEliminator
  else if k = c! "trim" then do
    trimFromYaml value
    return .trim
  else if k = c! "neologdn" then
    return .neologdn (← Neologdn.fromYaml σ value)
  else .err (.modifierKindParse (c! "specified key " ++ k ++ c! " does not exists."))

end Chanoma
