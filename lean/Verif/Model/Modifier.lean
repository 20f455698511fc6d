import Verif.Model.Table
import Verif.Model.Position
/-!
# `src/modifier.rs`, `src/modifier/*.rs`, `src/modifier_kind.rs`: the modifiers

Loops become folds over the same sequence with the same mutable variables as state.
Parsing (`FromStr`, YAML) is in `Verif/Model/Parse.lean` and `Verif/Model/Yaml.lean`.
-/

namespace Chanoma

/-! ## Data types -/

/-- `/repo/src/modifier/character_converter.rs:36-39`. -/
structure CharacterConverter where
  itemsMap : HMap Char Char
  deriving DecidableEq, Repr

/-- `/repo/src/modifier/character_eliminator.rs:10-13` (a `HashSet<char>`, queried and compared). -/
structure CharacterEliminator where
  chars : List Char
  deriving DecidableEq, Repr

/-- `/repo/src/modifier/consecutive_character_reducer.rs:11-14`. -/
structure ConsecutiveCharacterReducer where
  c : Char
  deriving DecidableEq, Repr

/-- `/repo/src/modifier/ligature_translator.rs:10-13`. -/
structure LigatureTranslator where
  map : HMap Str Str
  deriving DecidableEq, Repr

/-- `/repo/src/modifier/neologdn.rs:14-21`.  The field of the unit type
`DottedSpaceEliminator` is dropped. -/
structure Neologdn where
  characterConverter : CharacterConverter
  consecutive : ConsecutiveCharacterReducer
  characterEliminator : CharacterEliminator
  ligatureTranslator : LigatureTranslator
  deriving DecidableEq, Repr

/-- `/repo/src/modifier_kind.rs:13-29`. -/
inductive ModifierKind where
  | characterConverter (x : CharacterConverter)
  | characterEliminator (x : CharacterEliminator)
  | consecutiveCharacterReducer (x : ConsecutiveCharacterReducer)
  | dottedSpaceEliminator
  | ligatureTranslator (x : LigatureTranslator)
  | trim
  | neologdn (x : Neologdn)
  deriving DecidableEq, Repr

/-- `/repo/src/modifier.rs:25-30`. -/
structure ModifiedRecord where
  kind : ModifierKind
  text : Str
  positions : List Position
  deriving DecidableEq, Repr

/-! ## `CharacterConverter` -/

/-- `/repo/src/modifier/character_converter.rs:45-48`, the first loop of `modify`:
copies the characters into `refs` and collects, per distinct character, its indices. -/
def convCollect (input : Str) : Str × HMap Char (List Nat) :=
  input.zipIdx.foldl
    (fun st ci => (st.1 ++ [ci.1], HMap.entryUpdate [] (· ++ [ci.2]) st.2 ci.1)) ([], [])

/-- `/repo/src/modifier/character_converter.rs:42-60`, `modify`.  The second loop iterates
over a `HashMap`, hence the oracle. -/
def CharacterConverter.modify (x : CharacterConverter) (σ : Oracle) (input : Str) : Outcome Str :=
  let (refs, map) := convCollect input
  (σ.iter map).foldlM (fun refs e =>
    match x.itemsMap.get? e.1 with
    | some to => e.2.foldlM (fun refs i => setIdx refs i to) refs
    | none => .ok refs) refs

/-- `/repo/src/modifier/character_converter.rs:14-18`, struct `CharPos`. -/
structure CharPos where
  length : Nat
  indices : List Nat
  utf8Indices : List Nat
  deriving DecidableEq, Repr

/-- `/repo/src/modifier/character_converter.rs:68-73`, the first loop of
`modify_with_positions`; `index` counts characters, `i` is the byte offset. -/
def convCollectPos (input : Str) : Str × HMap Char CharPos :=
  (charIndices input).zipIdx.foldl
    (fun st e =>
      let c := e.1.2
      let i := e.1.1
      let index := e.2
      (st.1 ++ [c],
        HMap.entryUpdate ⟨c.utf8Size, [], []⟩
          (fun p => { p with indices := p.indices ++ [index], utf8Indices := p.utf8Indices ++ [i] })
          st.2 c)) ([], [])

/-- `/repo/src/modifier/character_converter.rs:62-99`, `modify_with_positions`. -/
def CharacterConverter.modifyWithPositions (x : CharacterConverter) (σ : Oracle) (input : Str) :
    Outcome ModifiedRecord := do
  let (refs, map) := convCollectPos input
  let (refs, positions) ← (σ.iter map).foldlM (fun (st : Str × List Position) e =>
    match x.itemsMap.get? e.1 with
    | some to => e.2.indices.zipIdx.foldlM (fun (st : Str × List Position) ci => do
        let refs ← setIdx st.1 ci.1 to
        let u ← getIdx e.2.utf8Indices ci.2
        return (refs, st.2 ++ [Position.new [e.1] [to] ci.1 u e.2.length 1])) st
    | none => .ok st) (refs, [])
  return ⟨.characterConverter x, refs, positions⟩

/-- `/repo/src/modifier/character_converter.rs:156-167`, `from_tables`. -/
def CharacterConverter.fromTables (tables : List Table) : Outcome CharacterConverter := do
  let m ← tables.foldlM (fun m (t : Table) =>
    t.items.foldlM (fun (m : HMap Char Char) (item : Item) => do
      let f ← unwrap item.from.head?
      let t ← unwrap item.to.head?
      return m.insert f t) m) []
  return ⟨m⟩

/-- `/repo/src/modifier/character_converter.rs:169-171`, `from_map`. -/
def CharacterConverter.fromMap (m : HMap Char Char) : CharacterConverter := ⟨m⟩

/-! ## `CharacterEliminator` -/

/-- `/repo/src/modifier/character_eliminator.rs:16-26`, `modify`. -/
def CharacterEliminator.modify (x : CharacterEliminator) (input : Str) : Str :=
  input.foldl (fun s c => if c ∈ x.chars then s else s ++ [c]) []

/-- `/repo/src/modifier/character_eliminator.rs:28-35`, `modify_with_positions`. -/
def CharacterEliminator.modifyWithPositions (x : CharacterEliminator) (input : Str) :
    ModifiedRecord := ⟨.characterEliminator x, x.modify input, []⟩

/-- `/repo/src/modifier/character_eliminator.rs:79-85`, `from_chars`
(and `from_char` at 73-77 for a singleton). -/
def CharacterEliminator.fromChars (chs : List Char) : CharacterEliminator :=
  ⟨chs.foldl hsetInsert []⟩

/-! ## `ConsecutiveCharacterReducer` -/

/-- `/repo/src/modifier/consecutive_character_reducer.rs:21-32`, the body of the loop of
`modify`; the state is `(consecutive, text)`. -/
def reduceStep (c : Char) (st : Bool × Str) (ch : Char) : Bool × Str :=
  if c = ch then
    if st.1 then st else (true, st.2 ++ [ch])
  else (false, st.2 ++ [ch])

/-- `/repo/src/modifier/consecutive_character_reducer.rs:17-35`, `modify`. -/
def ConsecutiveCharacterReducer.modify (x : ConsecutiveCharacterReducer) (input : Str) : Str :=
  (input.foldl (reduceStep x.c) (false, [])).2

/-- `/repo/src/modifier/consecutive_character_reducer.rs:43-63`, the body of the loop of
`modify_with_positions`; the state is `(counter, text, positions)`. -/
def reducePosStep (c : Char) (st : Nat × Str × List Position) (e : Char × Nat) :
    Nat × Str × List Position :=
  let (counter, text, positions) := st
  let (ch, i) := e
  if c = ch then
    if counter > 0 then (counter + 1, text, positions)
    else (1, text ++ [ch], positions)
  else if counter > 0 then
    (0, text ++ [ch], positions ++ [{
      «from» := List.replicate counter c
      to := [c]
      index := strLen text
      length := c.utf8Size * counter
      utf8Index := i
      utf8Length := counter }])
  else (counter, text ++ [ch], positions)

/-- `/repo/src/modifier/consecutive_character_reducer.rs:37-80`, `modify_with_positions`. -/
def ConsecutiveCharacterReducer.modifyWithPositions (x : ConsecutiveCharacterReducer)
    (input : Str) : Outcome ModifiedRecord := do
  let (counter, text, positions) := input.zipIdx.foldl (reducePosStep x.c) (0, [], [])
  if counter > 0 then
    let u ← usub (strLen input) counter
    return ⟨.consecutiveCharacterReducer x, text, positions ++ [{
      «from» := List.replicate counter x.c
      to := [x.c]
      index := strLen text
      length := x.c.utf8Size * counter
      utf8Index := u
      utf8Length := counter }]⟩
  else
    return ⟨.consecutiveCharacterReducer x, text, positions⟩

/-! ## `DottedSpaceEliminator` -/

/-- Loop state of `DottedSpaceEliminator::modify`. -/
structure DottedState where
  text : Str
  prev : Char
  space : Bool

/-- `/repo/src/modifier/dotted_space_eliminator.rs:19-35`, the loop body. -/
def dottedStep (st : DottedState) (c : Char) : DottedState :=
  if c = ' ' then
    { st with space := if isAsciiAlphanumeric st.prev then true else st.space, prev := c }
  else
    { text := (if st.space && isAsciiAlphanumeric c then st.text ++ [' '] else st.text) ++ [c]
      space := false
      prev := c }

/-- `/repo/src/modifier/dotted_space_eliminator.rs:14-37`, `modify`. -/
def dottedModify (input : Str) : Str :=
  (input.foldl dottedStep ⟨[], ' ', false⟩).text

/-- `/repo/src/modifier/dotted_space_eliminator.rs:39-46`, `modify_with_positions`. -/
def dottedModifyWithPositions (input : Str) : ModifiedRecord :=
  ⟨.dottedSpaceEliminator, dottedModify input, []⟩

/-! ## `LigatureTranslator` -/

/-- `/repo/src/modifier/ligature_translator.rs:16-22`, `modify`: the rules are applied one
after the other in hash order. -/
def LigatureTranslator.modify (x : LigatureTranslator) (σ : Oracle) (input : Str) : Str :=
  (σ.iter x.map).foldl (fun text e => strReplace e.1 e.2 text) input

/-- `/repo/src/modifier/ligature_translator.rs:24-31`, `modify_with_positions`. -/
def LigatureTranslator.modifyWithPositions (x : LigatureTranslator) (σ : Oracle) (input : Str) :
    ModifiedRecord := ⟨.ligatureTranslator x, x.modify σ input, []⟩

/-! ## `Trim` -/

/-- `/repo/src/modifier/trim.rs:14-16`, `modify`. -/
def trimModify (input : Str) : Str := trimMatches ' ' input

/-- `/repo/src/modifier/trim.rs:18-50`, `modify_with_positions`. -/
def trimModifyWithPositions (input : Str) : Outcome ModifiedRecord := do
  let t := trimStartMatches ' ' input
  let p1 ← if t ≠ input then do
      let len ← usub (strLen input) (strLen t)
      pure [({ «from» := List.replicate len ' ', to := [], index := 0, length := len,
               utf8Index := 0, utf8Length := len } : Position)]
    else pure []
  let text := trimEndMatches ' ' t
  let p2 ← if text ≠ t then do
      let len ← usub (strLen t) (strLen text)
      let index ← usub (strLen input) len
      let u ← usub input.length len
      pure [({ «from» := List.replicate len ' ', to := [], index := index, length := len,
               utf8Index := u, utf8Length := len } : Position)]
    else pure []
  return ⟨.trim, text, p1 ++ p2⟩

/-! ## `Neologdn` -/

/-- `/repo/src/modifier/neologdn.rs:86-129`, `KANA_TEN`. -/
def kanaTen : List (Str × Str) := [
  (['か', '゛'], ['が']),
  (['き', '゛'], ['ぎ']),
  (['く', '゛'], ['ぐ']),
  (['け', '゛'], ['げ']),
  (['こ', '゛'], ['ご']),
  (['さ', '゛'], ['ざ']),
  (['し', '゛'], ['じ']),
  (['す', '゛'], ['ず']),
  (['せ', '゛'], ['ぜ']),
  (['そ', '゛'], ['ぞ']),
  (['た', '゛'], ['だ']),
  (['ち', '゛'], ['ぢ']),
  (['つ', '゛'], ['づ']),
  (['て', '゛'], ['で']),
  (['と', '゛'], ['ど']),
  (['は', '゛'], ['ば']),
  (['ひ', '゛'], ['び']),
  (['ふ', '゛'], ['ぶ']),
  (['へ', '゛'], ['べ']),
  (['ほ', '゛'], ['ぼ']),
  (['う', '゛'], ['ゔ']),
  (['カ', '゛'], ['ガ']),
  (['キ', '゛'], ['ギ']),
  (['ク', '゛'], ['グ']),
  (['ケ', '゛'], ['ゲ']),
  (['コ', '゛'], ['ゴ']),
  (['サ', '゛'], ['ザ']),
  (['シ', '゛'], ['ジ']),
  (['ス', '゛'], ['ズ']),
  (['セ', '゛'], ['ゼ']),
  (['ソ', '゛'], ['ゾ']),
  (['タ', '゛'], ['ダ']),
  (['チ', '゛'], ['ヂ']),
  (['ツ', '゛'], ['ヅ']),
  (['テ', '゛'], ['デ']),
  (['ト', '゛'], ['ド']),
  (['ハ', '゛'], ['バ']),
  (['ヒ', '゛'], ['ビ']),
  (['フ', '゛'], ['ブ']),
  (['ヘ', '゛'], ['ベ']),
  (['ホ', '゛'], ['ボ']),
  (['ウ', '゛'], ['ヴ'])]

/-- `/repo/src/modifier/neologdn.rs:131-142`, `KANA_MARU`. -/
def kanaMaru : List (Str × Str) := [
  (['ハ', '゜'], ['パ']),
  (['ヒ', '゜'], ['ピ']),
  (['フ', '゜'], ['プ']),
  (['ヘ', '゜'], ['ペ']),
  (['ホ', '゜'], ['ポ']),
  (['は', '゜'], ['ぱ']),
  (['ひ', '゜'], ['ぴ']),
  (['ふ', '゜'], ['ぷ']),
  (['へ', '゜'], ['ぺ']),
  (['ほ', '゜'], ['ぽ'])]

/-- `/repo/src/modifier/neologdn.rs:144`, `TILDES`. -/
def tildes : List Char := ['~', '∼', '∾', '〜', '〰', '～']

/-- `/repo/src/modifier/neologdn.rs:146-149`, `CHOONPUS`. -/
def choonpus : List Item :=
  unificationItems [['﹣'], ['ｰ'], ['—'], ['―'], ['─'], ['━']] ['ー']

/-- `/repo/src/modifier/neologdn.rs:150-157`, `HYPHENS`. -/
def hyphens : List Item :=
  unificationItems
    [['˗'], ['֊'], ['‐'], ['‑'], ['‒'], ['–'], ['⁃'], ['⁻'], ['₋'], ['−'], ['－']] ['-']

/-- `/repo/src/modifier/neologdn.rs:161-162`: the table of the converter,
`ALL - &Punctuations::EQUAL_SIGN + &CHOONPUS + &HYPHENS`. -/
def neologdnTable (σ : Oracle) : Table :=
  Table.fromCorr (corrAdd σ (corrAdd σ (corrSub (allItems σ) equalSign) choonpus) hyphens) .new

/-- `/repo/src/modifier/neologdn.rs:163-169`: the ligature map. -/
def neologdnLigatures : HMap Str Str :=
  kanaMaru.foldl (fun m e => HMap.insert m e.1 e.2)
    (kanaTen.foldl (fun m e => HMap.insert m e.1 e.2) [])

/-- `/repo/src/modifier/neologdn.rs:160-177`, `Neologdn::new`. -/
def Neologdn.new (σ : Oracle) : Outcome Neologdn := do
  let conv ← CharacterConverter.fromTables [neologdnTable σ]
  return {
    characterConverter := conv
    consecutive := ⟨'ー'⟩
    characterEliminator := CharacterEliminator.fromChars tildes
    ligatureTranslator := ⟨neologdnLigatures⟩ }

/-- `/repo/src/modifier/neologdn.rs:24-31`, `modify`. -/
def Neologdn.modify (x : Neologdn) (σ : Oracle) (input : Str) : Outcome Str := do
  let text ← x.characterConverter.modify σ input
  let text := x.consecutive.modify text
  let text := dottedModify text
  let text := x.characterEliminator.modify text
  let text := x.ligatureTranslator.modify σ text
  return dottedModify text

/-- `/repo/src/modifier/neologdn.rs:33-46`, `modify_with_positions`: no second pass of the
space eliminator, and only the positions of the last step are returned. -/
def Neologdn.modifyWithPositions (x : Neologdn) (σ : Oracle) (input : Str) :
    Outcome ModifiedRecord := do
  let result ← x.characterConverter.modifyWithPositions σ input
  let result ← x.consecutive.modifyWithPositions result.text
  let result := dottedModifyWithPositions result.text
  let result := x.characterEliminator.modifyWithPositions result.text
  let result := x.ligatureTranslator.modifyWithPositions σ result.text
  return ⟨.neologdn x, result.text, result.positions⟩

/-! ## `ModifierKind` -/

/-- `/repo/src/modifier_kind.rs:89-99`, `modify`. -/
def ModifierKind.modify (σ : Oracle) (input : Str) : ModifierKind → Outcome Str
  | .characterConverter x => x.modify σ input
  | .characterEliminator x => .ok (x.modify input)
  | .consecutiveCharacterReducer x => .ok (x.modify input)
  | .dottedSpaceEliminator => .ok (dottedModify input)
  | .ligatureTranslator x => .ok (x.modify σ input)
  | .trim => .ok (trimModify input)
  | .neologdn x => x.modify σ input

/-- `/repo/src/modifier_kind.rs:101-111`, `modify_with_positions`. -/
def ModifierKind.modifyWithPositions (σ : Oracle) (input : Str) :
    ModifierKind → Outcome ModifiedRecord
  | .characterConverter x => x.modifyWithPositions σ input
  | .characterEliminator x => .ok (x.modifyWithPositions input)
  | .consecutiveCharacterReducer x => x.modifyWithPositions input
  | .dottedSpaceEliminator => .ok (dottedModifyWithPositions input)
  | .ligatureTranslator x => .ok (x.modifyWithPositions σ input)
  | .trim => trimModifyWithPositions input
  | .neologdn x => x.modifyWithPositions σ input

end Chanoma
