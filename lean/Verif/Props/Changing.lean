import Verif.Props.Builder
import Verif.Spec.Changing
/-! # C86: configurations that change while they are loaded -/

namespace Chanoma

theorem loadFileAt_same (σ : Oracle) (w : World) (path : OsStr) :
    Configuration.loadFileAt σ w w path = Configuration.loadFileWithExt σ w path := rfl

theorem fromConfigFileAt_eq (σ : Oracle) (w₁ w₂ : World) (path : OsStr) :
    Chanoma.fromConfigFileAt σ w₁ w₂ path =
      (Configuration.loadFileAt σ w₁ w₂ path >>= fun ms => .ok ⟨ms⟩) := rfl

theorem zipIdx_filter_fst {α : Type} (q : α → Bool) (l : List α) (i : Nat) :
    ((l.zipIdx i).filter fun p => q p.1).map Prod.fst = l.filter q := by
  induction l generalizing i with
  | nil => rfl
  | cons a l ih =>
    rw [List.zipIdx_cons, List.filter_cons, List.filter_cons]
    by_cases h : q a <;> simp [h, ih]

theorem zipIdx_mapM_fst {α β : Type} (f : α → Outcome β) (l : List α) (i : Nat) :
    ((l.zipIdx i).mapM fun p => f p.1) = l.mapM f := by
  induction l generalizing i with
  | nil => rfl
  | cons a l ih => rw [List.zipIdx_cons, List.mapM_cons, List.mapM_cons, ih]

/-- C86: if nothing changes, everything is as stated elsewhere for an unchanging environment. -/
theorem C86_unchanged (σ : Oracle) (w : World) :
    (∀ path, Chanoma.fromConfigFileAt σ w w path = Chanoma.fromConfigFile σ w path) ∧
    Chanoma.loadRcAt σ (fun _ => w) = Chanoma.loadRc σ w ∧
    (∀ path, TableBuilder.fromCsvPathAt w w path = TableBuilder.fromCsvPath w path) ∧
    (∀ path, TableBuilder.fromYamlPathAt w w path = TableBuilder.fromYamlPath w path) := by
  refine ⟨fun _ => rfl, ?_, fun _ => rfl, fun _ => rfl⟩
  have h : Configuration.filePathsAt (fun _ => w) = Configuration.filePaths w := by
    unfold Configuration.filePathsAt Configuration.filePaths
    cases Configuration.filePathFromEnv w with
    | some p => rfl
    | none =>
      simp only
      rw [zipIdx_filter_fst w.isFile]
      rfl
  unfold Chanoma.loadRcAt Chanoma.loadRc Configuration.loadAt Configuration.load
  rw [h]
  simp only [zipIdx_mapM_fst (Configuration.loadFileAt σ w w)]
  rfl

theorem loadYamlAt_eq {σ : Oracle} {w₁ w₂ : World} {path : OsStr} {data₁ data₂ : YValue}
    (h₁ : YamlFile w₁ path data₁) (h₂ : YamlFile w₂ path data₂)
    (hext : FileExtension.fromPath path = .ok .yaml) :
    Configuration.loadFileAt σ w₁ w₂ path = (do
      let items ← yamlItems data₁
      let conv ← CharacterConverter.fromTables [Table.fromCorr items (.configurationFile path)]
      let ms ← yamlModifiers σ data₂
      return ms ++ [.characterConverter conv]) := by
  unfold Configuration.loadFileAt Configuration.loadItemsToCharacterConverter
    Configuration.loadModifiers tableFromYamlPath modifiersFromYamlPath
  simp [hext, yamlFile_read h₁, yamlFile_read h₂]

theorem get_congr {data data' : YValue} {name : Str}
    (h : ∀ v, HasField data name v ↔ HasField data' name v) : data.get name = data'.get name := by
  cases hg : data'.get name with
  | some v => exact get_some.mpr ((h v).mpr (get_some.mp hg))
  | none =>
    cases hg' : data.get name with
    | none => rfl
    | some v => rw [get_some.mpr ((h v).mp (get_some.mp hg'))] at hg; cases hg

/-- C86: a YAML file that holds `data₁` when it is read for the items and `data₂` when it is read for the
modifiers loads like a file that always holds a document with the `items` of `data₁` and the
`modifiers` of `data₂`. -/
theorem C86_mixture (σ : Oracle) (w₁ w₂ w : World) (path : OsStr)
    (hext : HasExt path (p! "yaml") ∨ HasExt path (p! "yml")) (s₁ s₂ s : List UInt8)
    (data₁ data₂ data : YValue)
    (hfile₁ : w₁.entry path = some (.file s₁)) (hyaml₁ : w₁.parseYaml s₁ = some data₁)
    (hfile₂ : w₂.entry path = some (.file s₂)) (hyaml₂ : w₂.parseYaml s₂ = some data₂)
    (hfile : w.entry path = some (.file s)) (hyaml : w.parseYaml s = some data)
    (hitems : ∀ v, HasField data (c! "items") v ↔ HasField data₁ (c! "items") v)
    (hmods : ∀ v, HasField data (c! "modifiers") v ↔ HasField data₂ (c! "modifiers") v) :
    Chanoma.fromConfigFileAt σ w₁ w₂ path = Chanoma.fromConfigFile σ w path := by
  have e1 : yamlItems data = yamlItems data₁ := by unfold yamlItems; rw [get_congr hitems]
  have e2 : yamlModifiers σ data = yamlModifiers σ data₂ := by unfold yamlModifiers; rw [get_congr hmods]
  rw [fromConfigFileAt_eq, fromConfigFile_eq, loadYaml_eq ⟨s, hfile, hyaml⟩ (fromPath_yaml hext),
    loadYamlAt_eq ⟨s₁, hfile₁, hyaml₁⟩ ⟨s₂, hfile₂, hyaml₂⟩ (fromPath_yaml hext), e1, e2]

/-- The items of one document with the modifiers of another. -/
def mixedDocument (data₁ data₂ : YValue) : YValue :=
  .mapping (((data₁.get (c! "items")).toList.map fun v => (.string (c! "items"), v)) ++
    ((data₂.get (c! "modifiers")).toList.map fun v => (.string (c! "modifiers"), v)))

theorem mixedDocument_fields (data₁ data₂ : YValue) :
    (∀ v, HasField (mixedDocument data₁ data₂) (c! "items") v ↔ HasField data₁ (c! "items") v) ∧
    (∀ v, HasField (mixedDocument data₁ data₂) (c! "modifiers") v ↔ HasField data₂ (c! "modifiers") v) := by
  have e1 : (mixedDocument data₁ data₂).get (c! "items") = data₁.get (c! "items") := by
    unfold mixedDocument
    cases data₁.get (c! "items") <;> cases data₂.get (c! "modifiers") <;> rfl
  have e2 : (mixedDocument data₁ data₂).get (c! "modifiers") = data₂.get (c! "modifiers") := by
    unfold mixedDocument
    cases data₁.get (c! "items") <;> cases data₂.get (c! "modifiers") <;> rfl
  constructor
  · intro v; rw [← get_some, ← get_some, e1]
  · intro v; rw [← get_some, ← get_some, e2]

theorem noField_congr {data data' : YValue} {name : Str}
    (h : ∀ v, HasField data name v ↔ HasField data' name v) : NoField data name ↔ NoField data' name := by
  rw [← get_none, ← get_none, get_congr h]

theorem docItems_congr {data data' : YValue}
    (h : ∀ v, HasField data (c! "items") v ↔ HasField data' (c! "items") v) (items : List Item) :
    DocItems data items ↔ DocItems data' items := by
  unfold DocItems
  rw [noField_congr h]
  simp only [h]

theorem docSteps_congr {data data' : YValue}
    (h : ∀ v, HasField data (c! "modifiers") v ↔ HasField data' (c! "modifiers") v) (steps : List Step) :
    DocSteps data steps ↔ DocSteps data' steps := by
  unfold DocSteps
  rw [noField_congr h]
  simp only [h]

theorem docRejected_congr {data data' : YValue}
    (h : ∀ v, HasField data (c! "modifiers") v ↔ HasField data' (c! "modifiers") v) (msg : Str) :
    DocRejected data msg ↔ DocRejected data' msg := by
  unfold DocRejected
  simp only [h]

theorem docTable_congr {data data' : YValue}
    (h : ∀ v, HasField data (c! "items") v ↔ HasField data' (c! "items") v) :
    DocTable data ↔ DocTable data' := by
  unfold DocTable
  simp only [docItems_congr h]

/-- C86: the exact outcome for a YAML file that parses at both readings.  It depends on the table of the
first and the modifiers of the second document. -/
theorem C86_yaml_outcome (σ : Oracle) (w₁ w₂ : World) (path : OsStr)
    (hext : HasExt path (p! "yaml") ∨ HasExt path (p! "yml")) (s₁ s₂ : List UInt8) (data₁ data₂ : YValue)
    (hfile₁ : w₁.entry path = some (.file s₁)) (hyaml₁ : w₁.parseYaml s₁ = some data₁)
    (hfile₂ : w₂.entry path = some (.file s₂)) (hyaml₂ : w₂.parseYaml s₂ = some data₂) :
    (∀ items steps, DocItems data₁ items → CellsNonEmpty items → DocSteps data₂ steps →
      ∃ c, Chanoma.fromConfigFileAt σ w₁ w₂ path = .ok c ∧ c.modifiers.length = steps.length + 1 ∧
        ∀ σs debug text, ∃ mid, StepsMake steps text mid ∧
          c.normalize σs debug text = .ok (substitute (itemSubst items) mid)) ∧
    (∀ e, Chanoma.fromConfigFileAt σ w₁ w₂ path = .err e ↔
      DocTable data₁ ∧ ∃ msg, DocRejected data₂ msg ∧ e = .modifierKindParse msg) ∧
    (((DocTable data₁ → ¬ ∃ steps, DocSteps data₂ steps) ∧
        (DocTable data₁ → ¬ ∃ msg, DocRejected data₂ msg)) ↔
      Chanoma.fromConfigFileAt σ w₁ w₂ path = .panic) := by
  obtain ⟨f1, f2⟩ := mixedDocument_fields data₁ data₂
  let w : World := { w₁ with parseYaml := fun _ => some (mixedDocument data₁ data₂) }
  have e := C86_mixture σ w₁ w₂ w path hext s₁ s₂ s₁ data₁ data₂ _ hfile₁ hyaml₁ hfile₂ hyaml₂ hfile₁ rfl f1 f2
  rw [e]
  obtain ⟨-, h2, h3⟩ := C33_yaml_outcome σ w path hext s₁ _ hfile₁ rfl
  simp only [docTable_congr f1, docSteps_congr f2, docRejected_congr f2] at h2 h3
  refine ⟨fun items steps hi hc hs => ?_, h2, h3⟩
  exact C35_yaml_pipeline σ w path hext s₁ _ hfile₁ rfl items ((docItems_congr f1 items).mpr hi) hc steps
    ((docSteps_congr f2 steps).mpr hs)

/-- C86: what happens if one of the two readings of a YAML file fails.  The first one decides. -/
theorem C86_yaml_reading_fails (σ : Oracle) (w₁ w₂ : World) (path : OsStr)
    (hext : HasExt path (p! "yaml") ∨ HasExt path (p! "yml")) :
    (w₁.entry path = none ∨ w₁.entry path = some .denied →
      Chanoma.fromConfigFileAt σ w₁ w₂ path = .err .io) ∧
    ((∃ s, w₁.entry path = some (.file s) ∧ w₁.parseYaml s = none) ∨ w₁.entry path = some .dir →
      Chanoma.fromConfigFileAt σ w₁ w₂ path = .err .yamlFileLoad) ∧
    (∀ s data, w₁.entry path = some (.file s) → w₁.parseYaml s = some data →
      (¬ DocTable data → Chanoma.fromConfigFileAt σ w₁ w₂ path = .panic) ∧
      (DocTable data → w₂.entry path = none ∨ w₂.entry path = some .denied →
        Chanoma.fromConfigFileAt σ w₁ w₂ path = .err .io) ∧
      (DocTable data →
        (∃ s, w₂.entry path = some (.file s) ∧ w₂.parseYaml s = none) ∨ w₂.entry path = some .dir →
        Chanoma.fromConfigFileAt σ w₁ w₂ path = .err .yamlFileLoad)) := by
  have key : Chanoma.fromConfigFileAt σ w₁ w₂ path = (do
      let data₁ ← readYaml w₁ path
      let items ← yamlItems data₁
      let conv ← CharacterConverter.fromTables [Table.fromCorr items (.configurationFile path)]
      let data₂ ← readYaml w₂ path
      let ms ← yamlModifiers σ data₂
      return ⟨ms ++ [.characterConverter conv]⟩) := by
    rw [fromConfigFileAt_eq]
    unfold Configuration.loadFileAt Configuration.loadItemsToCharacterConverter
      Configuration.loadModifiers tableFromYamlPath modifiersFromYamlPath
    simp [fromPath_yaml hext]
  have hio : ∀ w : World, w.entry path = none ∨ w.entry path = some .denied → readYaml w path = .err .io := by
    rintro w (h | h) <;> simp [readYaml, h]
  have hy : ∀ w : World, (∃ s, w.entry path = some (.file s) ∧ w.parseYaml s = none) ∨
      w.entry path = some .dir → readYaml w path = .err .yamlFileLoad := by
    rintro w (⟨s, h, h'⟩ | h)
    · simp [readYaml, h, h']
    · simp [readYaml, h]
  have hfine : ∀ (data : YValue), DocTable data → ∃ conv, (do
      let items ← yamlItems data
      CharacterConverter.fromTables [Table.fromCorr items (.configurationFile path)]) = .ok conv := by
    rintro data ⟨items, hi, hc⟩
    obtain ⟨x, h3, -⟩ := fromTables_one_ok (Table.fromCorr items (.configurationFile path)) hc
    exact ⟨x, by rw [docItems_ok hi, Outcome.ok_bind, h3]⟩
  refine ⟨fun h => by rw [key, hio w₁ h]; rfl, fun h => by rw [key, hy w₁ h]; rfl, fun s data h h' => ?_⟩
  have hr : readYaml w₁ path = .ok data := yamlFile_read ⟨s, h, h'⟩
  refine ⟨fun hn => ?_, fun ht h2 => ?_, fun ht h2 => ?_⟩
  · rw [key, hr, Outcome.ok_bind]
    rcases docItems_cases data with hp | ⟨items, hi⟩
    · rw [hp]; rfl
    · rw [docItems_ok hi, Outcome.ok_bind,
        fromTables_one_panic (Table.fromCorr items (.configurationFile path)) (fun hc => hn ⟨items, hi, hc⟩)]
      rfl
  · obtain ⟨conv, hc⟩ := hfine data ht
    rw [key, hr, Outcome.ok_bind, ← bind_assoc, hc, Outcome.ok_bind, hio w₂ h2]
    rfl
  · obtain ⟨conv, hc⟩ := hfine data ht
    rw [key, hr, Outcome.ok_bind, ← bind_assoc, hc, Outcome.ok_bind, hy w₂ h2]
    rfl

/-- C86: a CSV file is read once. -/
theorem C86_csv_once (σ : Oracle) (w₁ w₂ : World) (path : OsStr) (hext : HasExt path (p! "csv")) :
    Chanoma.fromConfigFileAt σ w₁ w₂ path = Chanoma.fromConfigFile σ w₁ path := by
  rw [fromConfigFileAt_eq, fromConfigFile_eq]
  unfold Configuration.loadFileAt Configuration.loadFileWithExt Configuration.loadItemsToCharacterConverter
    Configuration.loadModifiers
  simp [fromPath_csv hext]

/-- A document that removes `gone` and then replaces `old` by `new`. -/
def changingDoc (gone old new : Str) : YValue := .mapping [
  (.string (c! "items"), .mapping [(.string new, .string old)]),
  (.string (c! "modifiers"), .mapping [(.string (c! "character_eliminator"), .sequence [.string gone])])]

/-- C86 (one would expect one of the two versions of the file): a file is replaced between the two
readings.  What is loaded is neither the old nor the new configuration; it gives a text that neither of
them gives. -/
theorem C86_neither_version : ∃ (w₁ w₂ : World) (path : OsStr) (text r r₁ r₂ : Str), ∀ σ σs debug,
    (∃ c, Chanoma.fromConfigFileAt σ w₁ w₂ path = .ok c ∧ c.normalize σs debug text = .ok r) ∧
    (∃ c, Chanoma.fromConfigFile σ w₁ path = .ok c ∧ c.normalize σs debug text = .ok r₁) ∧
    (∃ c, Chanoma.fromConfigFile σ w₂ path = .ok c ∧ c.normalize σs debug text = .ok r₂) ∧
    r ≠ r₁ ∧ r ≠ r₂ := by
  let doc₁ := changingDoc (c! "a") (c! "b") (c! "c")
  let doc₂ := changingDoc (c! "b") (c! "a") (c! "d")
  let w₁ : World := .ofFiles [(p! "/c.yaml", .text [])] (fun _ => some doc₁)
  let w₂ : World := .ofFiles [(p! "/c.yaml", .text [])] (fun _ => some doc₂)
  refine ⟨w₁, w₂, p! "/c.yaml", c! "ab", c! "a", c! "c", c! "d", fun σ σs debug => ?_⟩
  have hext : HasExt (p! "/c.yaml") (p! "yaml") :=
    ⟨p! "c", ⟨p! "/", [], rfl, by decide, .nil, by decide, by decide, by decide, by decide⟩,
      by decide, by decide⟩
  have hi : ∀ gone old new, DocItems (changingDoc gone old new) [⟨old, new⟩] := fun gone old new =>
    .inr ⟨_, ⟨[], _, rfl, by simp⟩, .cons (.one new old) .nil⟩
  have hs : ∀ g old new, DocSteps (changingDoc [g] old new) [.eliminate [g]] := fun g old new =>
    .inr ⟨_, ⟨[(.string (c! "items"), .mapping [(.string new, .string old)])], [], rfl, by
      intro e he
      simp at he; subst he
      intro h; cases h⟩, .cons (.eliminate [(g, [])]) .nil⟩
  have hm : ∀ g text mid, StepsMake [.eliminate [g]] text mid → mid = text.filter (fun c => c ∉ [g]) := by
    intro g text mid h
    cases h with
    | cons h1 h2 => cases h2; exact h1
  have h1 := (C86_yaml_outcome σ w₁ w₂ _ (.inl hext) [] [] doc₁ doc₂ rfl rfl rfl rfl).1
    [⟨c! "b", c! "c"⟩] _ (hi _ _ _) (by decide) (hs 'b' _ _)
  have h2 := C35_yaml_pipeline σ w₁ _ (.inl hext) [] doc₁ rfl rfl [⟨c! "b", c! "c"⟩] (hi _ _ _) (by decide) _
    (hs 'a' _ _)
  have h3 := C35_yaml_pipeline σ w₂ _ (.inl hext) [] doc₂ rfl rfl [⟨c! "a", c! "d"⟩] (hi _ _ _) (by decide) _
    (hs 'b' _ _)
  refine ⟨?_, ?_, ?_, by decide, by decide⟩
  · obtain ⟨c, e, -, hc⟩ := h1
    obtain ⟨mid, hmid, hn⟩ := hc σs debug (c! "ab")
    refine ⟨c, e, ?_⟩
    rw [hn, hm _ _ _ hmid]
    exact congrArg _ (by decide +kernel)
  · obtain ⟨c, e, -, hc⟩ := h2
    obtain ⟨mid, hmid, hn⟩ := hc σs debug (c! "ab")
    refine ⟨c, e, ?_⟩
    rw [hn, hm _ _ _ hmid]
    exact congrArg _ (by decide +kernel)
  · obtain ⟨c, e, -, hc⟩ := h3
    obtain ⟨mid, hmid, hn⟩ := hc σs debug (c! "ab")
    refine ⟨c, e, ?_⟩
    rw [hn, hm _ _ _ hmid]
    exact congrArg _ (by decide +kernel)

theorem loadAt_search {σ : Oracle} {ws : Nat → World} (hw : ¬ ChanomarcSet (ws 0)) {found : List OsStr}
    (hf : found = (((rcCandidates { ws 1 with cwd := (ws 2).cwd }).zipIdx.filter fun p =>
      (ws (3 + p.2)).isFile p.1).map Prod.fst)) :
    Chanoma.loadRcAt σ ws = (found.zipIdx.mapM fun p =>
      Configuration.loadFileAt σ (ws (15 + 2 * p.2)) (ws (16 + 2 * p.2)) p.1) >>= fun r =>
        .ok ⟨r.flatten⟩ := by
  unfold Chanoma.loadRcAt Configuration.loadAt Configuration.filePathsAt
  rw [filePathFromEnv_none hw]
  simp only [autoLoadPaths_eq, Outcome.ok_bind]
  rw [← hf]
  cases found with
  | nil => rfl
  | cons p ps =>
    simp only [List.isEmpty_cons, Bool.false_eq_true, if_false, Outcome.pure_eq]
    cases (p :: ps).zipIdx.mapM fun p =>
      Configuration.loadFileAt σ (ws (15 + 2 * p.2)) (ws (16 + 2 * p.2)) p.1 <;> rfl

theorem lookedFor_filter (ws : Nat → World) (l : List OsStr) (i : Nat) :
    LookedFor ws (3 + i) l (((l.zipIdx i).filter fun p => (ws (3 + p.2)).isFile p.1).map Prod.fst) := by
  induction l generalizing i with
  | nil => exact .nil _
  | cons p l ih =>
    rw [List.zipIdx_cons, List.filter_cons]
    by_cases h : (ws (3 + i)).isFile p = true
    · simp only [h, if_true, List.map_cons]
      exact .there (isFile_iff.mp h) (ih (i + 1))
    · simp only [h]
      exact .missing (fun h' => h (isFile_iff.mpr h')) (ih (i + 1))

theorem lookedFor_unique {ws : Nat → World} {t : Nat} {l found found' : List OsStr}
    (h : LookedFor ws t l found) (h' : LookedFor ws t l found') : found = found' := by
  induction h generalizing found' with
  | nil => cases h'; rfl
  | there h1 _ ih =>
    cases h' with
    | there _ h2 => rw [ih h2]
    | missing h2 _ => exact absurd h1 h2
  | missing h1 _ ih =>
    cases h' with
    | there h2 _ => exact absurd h2 h1
    | missing _ h2 => exact ih h2

theorem loadedInTurn_mapM (σ : Oracle) (ws : Nat → World) (l : List OsStr) (j : Nat) :
    LoadedInTurn σ ws (15 + 2 * j) l (((l.zipIdx j).mapM fun p =>
      Configuration.loadFileAt σ (ws (15 + 2 * p.2)) (ws (16 + 2 * p.2)) p.1) >>= fun r =>
        .ok ⟨r.flatten⟩) := by
  induction l generalizing j with
  | nil => exact .nil _
  | cons p l ih =>
    rw [List.zipIdx_cons, List.mapM_cons]
    have e : 16 + 2 * j = 15 + 2 * j + 1 := by omega
    have ih := ih (j + 1)
    rw [show 15 + 2 * (j + 1) = 15 + 2 * j + 2 by omega] at ih
    have hp := fromConfigFileAt_eq σ (ws (15 + 2 * j)) (ws (15 + 2 * j + 1)) p
    simp only [e]
    cases h : Configuration.loadFileAt σ (ws (15 + 2 * j)) (ws (15 + 2 * j + 1)) p with
    | err e => rw [h] at hp; exact .err hp
    | panic => rw [h] at hp; exact .panic hp
    | ok ms =>
      rw [h, Outcome.ok_bind] at hp
      simp only [Outcome.ok_bind]
      revert ih
      cases (l.zipIdx (j + 1)).mapM fun p =>
        Configuration.loadFileAt σ (ws (15 + 2 * p.2)) (ws (16 + 2 * p.2)) p.1 with
      | err e => exact fun ih => .err_later hp ih
      | panic => exact fun ih => .panic_later hp ih
      | ok r => exact fun ih => .ok hp ih

theorem loadedInTurn_unique {σ : Oracle} {ws : Nat → World} {t : Nat} {l : List OsStr}
    {r r' : Outcome Chanoma} (h : LoadedInTurn σ ws t l r) (h' : LoadedInTurn σ ws t l r') : r = r' := by
  induction h generalizing r' with
  | nil => cases h'; rfl
  | ok h1 _ ih =>
    cases h' with
    | ok h2 h3 => rw [h1] at h2; cases h2; cases ih h3; rfl
    | err h2 => rw [h1] at h2; cases h2
    | panic h2 => rw [h1] at h2; cases h2
    | err_later h2 h3 => rw [h1] at h2; cases h2; cases ih h3
    | panic_later h2 h3 => rw [h1] at h2; cases h2; cases ih h3
  | err h1 =>
    cases h' with
    | ok h2 _ => rw [h1] at h2; cases h2
    | err h2 => rw [h1] at h2; cases h2; rfl
    | panic h2 => rw [h1] at h2; cases h2
    | err_later h2 _ => rw [h1] at h2; cases h2
    | panic_later h2 _ => rw [h1] at h2; cases h2
  | panic h1 =>
    cases h' with
    | ok h2 _ => rw [h1] at h2; cases h2
    | err h2 => rw [h1] at h2; cases h2
    | panic _ => rfl
    | err_later h2 _ => rw [h1] at h2; cases h2
    | panic_later h2 _ => rw [h1] at h2
  | err_later h1 _ ih =>
    cases h' with
    | ok h2 h3 => rw [h1] at h2; cases h2; cases ih h3
    | err h2 => rw [h1] at h2; cases h2
    | panic h2 => rw [h1] at h2; cases h2
    | err_later h2 h3 => rw [h1] at h2; cases h2; cases ih h3; rfl
    | panic_later h2 h3 => rw [h1] at h2; cases h2; cases ih h3
  | panic_later h1 _ ih =>
    cases h' with
    | ok h2 h3 => rw [h1] at h2; cases h2; cases ih h3
    | err h2 => rw [h1] at h2; cases h2
    | panic h2 => rw [h1] at h2
    | err_later h2 h3 => rw [h1] at h2; cases h2; cases ih h3
    | panic_later _ _ => rfl

/-- C86: what `load_rc` does if `CHANOMARC` is not set (when it is asked for). -/
theorem C86_search (σ : Oracle) (ws : Nat → World) (hw : ¬ ChanomarcSet (ws 0)) :
    (∃ found, LookedFor ws 3 (rcCandidates { ws 1 with cwd := (ws 2).cwd }) found ∧
      LoadedInTurn σ ws 15 found (Chanoma.loadRcAt σ ws)) ∧
    (∀ found r, LookedFor ws 3 (rcCandidates { ws 1 with cwd := (ws 2).cwd }) found →
      LoadedInTurn σ ws 15 found r → Chanoma.loadRcAt σ ws = r) := by
  have key := lookedFor_filter ws (rcCandidates { ws 1 with cwd := (ws 2).cwd }) 0
  have hl := loadedInTurn_mapM σ ws ((((rcCandidates { ws 1 with cwd := (ws 2).cwd }).zipIdx.filter fun p =>
      (ws (3 + p.2)).isFile p.1).map Prod.fst)) 0
  rw [← loadAt_search hw rfl] at hl
  refine ⟨⟨_, key, hl⟩, fun found r h1 h2 => ?_⟩
  rw [lookedFor_unique h1 key] at h2
  exact loadedInTurn_unique hl h2

/-- C86: what `load_rc` does if `CHANOMARC` is set (when it is asked for): the file is looked for at the
moment 1 and read at the moments 15 and 16. -/
theorem C86_chanomarc (σ : Oracle) (ws : Nat → World) (p : OsStr) (hw : (ws 0).chanomarc = some p)
    (hutf8 : IsUtf8 p) :
    (¬ IsFile (ws 1) p → Chanoma.loadRcAt σ ws = .err (.rcFileLoad p)) ∧
    (IsFile (ws 1) p → (¬ ∃ ext, HasExt p ext) → Chanoma.loadRcAt σ ws = .panic) ∧
    (∀ ext, IsFile (ws 1) p → HasExt p ext → ext ≠ p! "csv" → ext ≠ p! "yaml" →
      Chanoma.loadRcAt σ ws = .err (.rcFileLoad p)) ∧
    (∀ ext, IsFile (ws 1) p → HasExt p ext → ext = p! "csv" ∨ ext = p! "yaml" →
      Chanoma.loadRcAt σ ws = Chanoma.fromConfigFileAt σ (ws 15) (ws 16) p) := by
  have key : ∀ r, Configuration.validFilePath (ws 1) p = r → Chanoma.loadRcAt σ ws = (r >>= fun paths =>
      (if paths.isEmpty then .ok [] else (paths.zipIdx.mapM fun p =>
        Configuration.loadFileAt σ (ws (15 + 2 * p.2)) (ws (16 + 2 * p.2)) p.1) >>= fun r =>
        .ok r.flatten) >>= fun ms => .ok ⟨ms⟩) := by
    rintro r rfl
    unfold Chanoma.loadRcAt Configuration.loadAt Configuration.filePathsAt
    obtain ⟨q, rfl⟩ := hutf8
    rw [filePathFromEnv_some hw]
    show (Configuration.validFilePath (ws 1) (strBytes q) >>= _) >>= _ = _
    cases Configuration.validFilePath (ws 1) (strBytes q) with
    | ok paths => cases paths <;> rfl
    | err e => rfl
    | panic => rfl
  obtain ⟨p, rfl⟩ := hutf8
  refine ⟨fun h => ?_, fun h hx => ?_, fun ext h hx h1 h2 => ?_, fun ext h hx h1 => ?_⟩
  · have : (ws 1).isFile (strBytes p) = false := by
      rw [← Bool.not_eq_true, isFile_iff]; exact h
    rw [key (.err (.rcFileLoad (strBytes p))) (by simp [Configuration.validFilePath, this])]; rfl
  · rw [key .panic (by unfold Configuration.validFilePath; rw [isFile_iff.mpr h, extension_none.mpr hx]; rfl)]
    rfl
  · obtain ⟨ext, rfl⟩ := hx.utf8
    have : FileExtension.all.all (fun e => e.toString != ext) = true := by
      rw [← strBytes_csv] at h1
      rw [← strBytes_yaml] at h2
      have h1 : ext ≠ c! "csv" := fun e => h1 (by rw [e])
      have h2 : ext ≠ c! "yaml" := fun e => h2 (by rw [e])
      simp [FileExtension.all, FileExtension.toString, Ne.symm h1, Ne.symm h2]
    rw [key (.err (.rcFileLoad (strBytes p))) (by
      unfold Configuration.validFilePath
      rw [isFile_iff.mpr h, extension_iff.mpr hx]
      simp only [unwrap, Bool.not_true, Bool.false_eq_true, if_false, Outcome.ok_bind,
        strFromUtf8_strBytes, this, if_true])]
    rfl
  · obtain ⟨ext, rfl⟩ := hx.utf8
    have : FileExtension.all.all (fun e => e.toString != ext) = false := by
      rw [← strBytes_csv, ← strBytes_yaml] at h1
      rcases h1 with h1 | h1 <;> (rw [strBytes_inj h1]; decide)
    rw [key (.ok [strBytes p]) (by
      unfold Configuration.validFilePath
      rw [isFile_iff.mpr h, extension_iff.mpr hx]
      simp only [Bool.not_true, Bool.false_eq_true, if_false, unwrap, Outcome.ok_bind,
        strFromUtf8_strBytes, this, Outcome.pure_eq]), fromConfigFileAt_eq]
    simp only [Outcome.ok_bind, List.isEmpty_cons, Bool.false_eq_true, if_false, List.zipIdx_cons,
      List.zipIdx_nil, List.mapM_cons, List.mapM_nil, Nat.mul_zero, Nat.add_zero]
    cases Configuration.loadFileAt σ (ws 15) (ws 16) (strBytes p) <;> simp

theorem loadedInTurn_append {σ : Oracle} {ws : Nat → World} {t : Nat} {before rest : List OsStr}
    {r : Outcome Chanoma} {e : Error} (h : LoadedInTurn σ ws t before r) (d : Chanoma) (hr : r = .ok d)
    (h' : LoadedInTurn σ ws (t + 2 * before.length) rest (.err e)) :
    LoadedInTurn σ ws t (before ++ rest) (.err e) := by
  induction h generalizing d with
  | nil => exact h'
  | @ok t p ps c d' h1 _ ih =>
    refine .err_later h1 (ih _ rfl ?_)
    rw [show t + 2 + 2 * ps.length = t + 2 * (p :: ps).length by simp only [List.length_cons]; omega]
    exact h'
  | _ => cases hr

theorem lookedFor_mem {ws : Nat → World} {t : Nat} {l found : List OsStr} (h : LookedFor ws t l found)
    {p : OsStr} (hp : p ∈ found) : p ∈ l := by
  induction h with
  | nil => cases hp
  | there _ _ ih =>
    rcases List.mem_cons.mp hp with rfl | hp
    · exact List.mem_cons_self
    · exact List.mem_cons_of_mem _ (ih hp)
  | missing _ _ ih => exact List.mem_cons_of_mem _ (ih hp)

/-- C86 (one would expect a file that does not exist to be passed over, as in C38): a file that is found
and gone when it is to be read is an error, even if other rc files have been loaded. -/
theorem C86_vanished (σ : Oracle) (ws : Nat → World) (hw : ¬ ChanomarcSet (ws 0)) (p : OsStr)
    (before rest : List OsStr)
    (hfound : LookedFor ws 3 (rcCandidates { ws 1 with cwd := (ws 2).cwd }) (before ++ p :: rest))
    (c : Chanoma) (hbefore : LoadedInTurn σ ws 15 before (.ok c))
    (hgone : (ws (15 + 2 * before.length)).entry p = none) :
    (HasExt p (p! "csv") ∧ Chanoma.loadRcAt σ ws = .err .csvFileLoad) ∨
      (HasExt p (p! "yaml") ∧ Chanoma.loadRcAt σ ws = .err .io) := by
  have key : ∀ e, (∀ w, Chanoma.fromConfigFileAt σ (ws (15 + 2 * before.length)) w p = .err e) →
      Chanoma.loadRcAt σ ws = .err e := fun e he =>
    (C86_search σ ws hw).2 _ _ hfound (loadedInTurn_append hbefore c rfl (.err (he _)))
  rcases rcCandidates_ext (lookedFor_mem hfound (by simp : p ∈ before ++ p :: rest)) with hx | hx
  · refine .inl ⟨hx, key _ fun w => ?_⟩
    rw [C86_csv_once σ _ w p hx]
    exact (C33_unreadable σ _ p).1 hx (by rintro ⟨b, -, h, -⟩; rw [hgone] at h; cases h)
  · exact .inr ⟨hx, key _ fun w => (C86_yaml_reading_fails σ _ w p (.inl hx)).1 (.inl hgone)⟩

/-- C86: the paths given to the table builders are resolved at one moment and the files read at the next.
A path that cannot be resolved is an I/O error whatever happens later.  Otherwise the file that the path
meant at the first moment (a link may since have been redirected) is read with its contents at the
second. -/
theorem C86_tables (w₁ w₂ : World) (path : OsStr) :
    (w₁.canonicalize path = none →
      TableBuilder.fromCsvPathAt w₁ w₂ path = .err .io ∧
      TableBuilder.fromYamlPathAt w₁ w₂ path = .err .io) ∧
    ∀ real, w₁.canonicalize path = some real →
      (∀ b rows, w₂.entry real = some (.file b) → CsvRows b rows →
        ∃ t, TableBuilder.fromCsvPathAt w₁ w₂ path = .ok t ∧ t.build.items = rows.flatMap rowItems ∧
          t.build.origin = .configurationFile real) ∧
      ((¬ ∃ b rows, w₂.entry real = some (.file b) ∧ CsvRows b rows) →
        TableBuilder.fromCsvPathAt w₁ w₂ path = .err .csvFileLoad) ∧
      (∀ s data, w₂.entry real = some (.file s) → w₂.parseYaml s = some data →
        (∀ items, DocItems data items → ∃ t, TableBuilder.fromYamlPathAt w₁ w₂ path = .ok t ∧
          t.build.items = items ∧ t.build.origin = .configurationFile real) ∧
        ((¬ ∃ items, DocItems data items) → TableBuilder.fromYamlPathAt w₁ w₂ path = .panic)) ∧
      ((∃ s, w₂.entry real = some (.file s) ∧ w₂.parseYaml s = none) ∨ w₂.entry real = some .dir →
        TableBuilder.fromYamlPathAt w₁ w₂ path = .err .yamlFileLoad) ∧
      (w₂.entry real = none ∨ w₂.entry real = some .denied →
        TableBuilder.fromYamlPathAt w₁ w₂ path = .err .io) := by
  have h1 := C55_from_csv_path { w₂ with canonicalize := w₁.canonicalize } path
  have h2 := C55_from_yaml_path { w₂ with canonicalize := w₁.canonicalize } path
  exact ⟨fun h => ⟨h1.1 h, h2.1 h⟩, fun real h =>
    ⟨(h1.2 real h).1, (h1.2 real h).2, (h2.2 real h).1, (h2.2 real h).2.1, (h2.2 real h).2.2⟩⟩

/-! ## Examples

A program that saves `/work/chanomarc.yaml` in place while it is loaded: at the moment 16 the new version
is there.  Another one that removes it at the moment 15. -/

/-- The file is replaced between the two readings. -/
def savedAt (t : Nat) : World := .ofFiles [(p! "/work/chanomarc.yaml", .text [])] (fun _ =>
  some (if t < 16 then changingDoc (c! "a") (c! "b") (c! "c") else changingDoc (c! "b") (c! "a") (c! "d")))

/-- The file is removed after it was found. -/
def removedAt (t : Nat) : World := .ofFiles (if t < 15 then [(p! "/work/chanomarc.yaml", .text [])] else [])

theorem lookedFor_work (ws : Nat → World) (h : ∀ t, 3 ≤ t → t < 15 → (ws t).entry =
      (World.ofFiles [(p! "/work/chanomarc.yaml", .text [])]).entry)
    (hw : rcCandidates { ws 1 with cwd := (ws 2).cwd } = rcCandidates (.ofFiles [])) :
    LookedFor ws 3 (rcCandidates { ws 1 with cwd := (ws 2).cwd }) [p! "/work/chanomarc.yaml"] := by
  have h2 : ((rcCandidates (.ofFiles [])).zipIdx.filter fun p => (ws (3 + p.2)).isFile p.1) =
      ((rcCandidates (.ofFiles [])).zipIdx.filter fun p =>
        (World.ofFiles [(p! "/work/chanomarc.yaml", .text [])]).isFile p.1) := by
    apply List.filter_congr
    intro p hp
    have : (rcCandidates (.ofFiles [])).length = 12 := by decide +kernel
    have := (List.mem_zipIdx hp).2.1
    unfold World.isFile
    rw [h _ (by omega) (by omega)]
  have := lookedFor_filter ws (rcCandidates (.ofFiles [])) 0
  rw [h2] at this
  rw [hw]
  exact this

example : ¬ ChanomarcSet (savedAt 0) ∧
    LookedFor savedAt 3 (rcCandidates { savedAt 1 with cwd := (savedAt 2).cwd })
      [p! "/work/chanomarc.yaml"] ∧
    (Chanoma.loadRcAt .insertion savedAt >>= fun c => c.normalize (fun _ => .insertion) false (c! "ab")) =
      .ok (c! "a") :=
  ⟨(by rintro ⟨_, h, -⟩; cases h), lookedFor_work _ (fun _ _ _ => rfl) rfl, by decide +kernel⟩

example : ¬ ChanomarcSet (removedAt 0) ∧
    LookedFor removedAt 3 (rcCandidates { removedAt 1 with cwd := (removedAt 2).cwd })
      ([] ++ [p! "/work/chanomarc.yaml"]) ∧
    LoadedInTurn .insertion removedAt 15 [] (.ok ⟨[]⟩) ∧
    (removedAt (15 + 2 * ([] : List OsStr).length)).entry (p! "/work/chanomarc.yaml") = none :=
  ⟨(by rintro ⟨_, h, -⟩; cases h),
    lookedFor_work _ (fun t _ h => by unfold removedAt; rw [if_pos h]) rfl, .nil _, rfl⟩

/-- The hypotheses of `C86_chanomarc`: the variable is changed after it was read. -/
example (ws : Nat → World) (hws : ws = fun t => { World.ofFiles [(p! "/etc/table.yaml", .text [])] with
      chanomarc := if t = 0 then some (p! "/etc/table.yaml") else none }) :
    (ws 0).chanomarc = some (p! "/etc/table.yaml") ∧ (ws 1).chanomarc = none ∧
    IsUtf8 (p! "/etc/table.yaml") ∧ IsFile (ws 1) (p! "/etc/table.yaml") := by
  subst hws
  exact ⟨rfl, rfl, ⟨c! "/etc/table.yaml", by decide +kernel⟩, isFile_iff.mp (by decide +kernel)⟩

/-- The hypotheses of `C86_yaml_outcome` and `C86_yaml_reading_fails` (also those of the error). -/
example : DocTable (changingDoc (c! "a") (c! "b") (c! "c")) ∧
    DocRejected (.mapping [(.string (c! "modifiers"), .mapping [(.string (c! "uppercase"), .null)])])
      (c! "specified key uppercase does not exists.") :=
  ⟨⟨[⟨c! "b", c! "c"⟩], .inr ⟨_, ⟨[], _, rfl, by simp⟩, .cons (.one (c! "c") (c! "b")) .nil⟩, by decide⟩,
    [], [], _, _, [], ⟨[], [], rfl, by simp⟩, .nil, .unknown _ (by decide) (by decide)⟩

/-- The hypotheses of `C86_tables`: a link that is redirected after it was resolved. -/
example (ws : Nat → World) (hws : ws = fun t =>
      { World.ofFiles [(p! "/a.csv", .text (c! "from,to\na,A\n")), (p! "/b.csv", .text (c! "from,to\nb,B\n"))]
        with canonicalize := fun p =>
          if p = p! "/link" then some (if t = 0 then p! "/a.csv" else p! "/b.csv") else none }) :
    (ws 0).canonicalize (p! "/link") = some (p! "/a.csv") ∧
    (ws 1).canonicalize (p! "/link") = some (p! "/b.csv") ∧
    (TableBuilder.fromCsvPathAt (ws 0) (ws 1) (p! "/link") >>= fun t => .ok t.build.items) =
      .ok [⟨c! "a", c! "A"⟩] := by
  subst hws
  exact ⟨rfl, rfl, by decide +kernel⟩

end Chanoma
