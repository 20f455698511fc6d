import Verif.Model.Modifier
/-! # `src/chanoma.rs`, `ModifiedRecords` of `src/modifier.rs` -/

namespace Chanoma

/-- `/repo/src/chanoma.rs:12-14`, struct `Chanoma`. -/
structure Chanoma where
  modifiers : List ModifierKind
  deriving DecidableEq, Repr

/-- `/repo/src/modifier.rs:48-52`, struct `ModifiedRecords`. -/
structure ModifiedRecords where
  records : List ModifiedRecord
  deriving DecidableEq, Repr

/-- `/repo/src/modifier.rs:74-76`, `ModifiedRecords::text`: `records.last().unwrap()`. -/
def ModifiedRecords.text (r : ModifiedRecords) : Outcome Str := do
  let last ← unwrap r.records.getLast?
  return last.text

namespace Chanoma

/-- `/repo/src/chanoma.rs:30-34`, `Chanoma::new`. -/
def new : Chanoma := ⟨[]⟩

/-- `/repo/src/chanoma.rs:186-191`, `all_characters_set`. -/
def allCharactersSet (σ : Oracle) : Outcome ModifierKind := do
  let conv ← CharacterConverter.fromTables [(TableBuilder.new.preset σ).build]
  return .characterConverter conv

/-- `/repo/src/chanoma.rs:69-73`, `Chanoma::preset`. -/
def preset (σ : Oracle) : Outcome Chanoma := do
  let k ← allCharactersSet σ
  return ⟨[k]⟩

/-- `/repo/src/chanoma.rs:83-86`, `use_preset`. -/
def usePreset (σ : Oracle) (c : Chanoma) : Outcome Chanoma := do
  let k ← allCharactersSet σ
  return ⟨c.modifiers ++ [k]⟩

/-- `/repo/src/chanoma.rs:95-99`, `Chanoma::neologdn`. -/
def neologdn (σ : Oracle) : Outcome Chanoma := do
  let n ← Neologdn.new σ
  return ⟨[.neologdn n]⟩

/-- `/repo/src/chanoma.rs:109-112`, `use_neologdn`. -/
def useNeologdn (σ : Oracle) (c : Chanoma) : Outcome Chanoma := do
  let n ← Neologdn.new σ
  return ⟨c.modifiers ++ [.neologdn n]⟩

/-- `/repo/src/chanoma.rs:164-168`, `from_table`. -/
def fromTable (t : Table) : Outcome Chanoma := do
  let conv ← CharacterConverter.fromTables [t]
  return ⟨[.characterConverter conv]⟩

/-- `/repo/src/chanoma.rs:180-184`, `add_table`. -/
def addTable (c : Chanoma) (t : Table) : Outcome Chanoma := do
  let conv ← CharacterConverter.fromTables [t]
  return ⟨c.modifiers ++ [.characterConverter conv]⟩

/-- `/repo/src/chanoma.rs:141-153`, `normalize_with_positions`.  Each modifier has its own
hash maps, hence its own oracle `σs i`.  The `log::debug!` call has no effect on the result
and is dropped. -/
def normalizeWithPositions (c : Chanoma) (σs : Nat → Oracle) (text : Str) :
    Outcome ModifiedRecords := do
  let (v, _) ← c.modifiers.zipIdx.foldlM
    (fun (st : List ModifiedRecord × Str) (m : ModifierKind × Nat) => do
      let result ← m.1.modifyWithPositions (σs m.2) st.2
      return (st.1 ++ [result], result.text)) (([] : List ModifiedRecord), text)
  return ⟨v⟩

/-- `/repo/src/chanoma.rs:122-130`, `normalize`; `debug` is `log_enabled!(log::Level::Debug)`. -/
def normalize (c : Chanoma) (σs : Nat → Oracle) (debug : Bool) (text : Str) : Outcome Str :=
  if !debug then
    c.modifiers.zipIdx.foldlM (fun acc m => m.1.modify (σs m.2) acc) text
  else do
    let r ← c.normalizeWithPositions σs text
    r.text

end Chanoma
end Chanoma
