import Verif.Props.Conversion
import Verif.Props.Csv
import Verif.Proofs.Config
import Verif.Proofs.Path
import Verif.Proofs.Width
import Verif.Model.Cli
import Verif.Spec.Files
/-! # C33–C41, C50: configuration files -/

namespace Chanoma

theorem fromConfigFile_eq (σ : Oracle) (w : World) (path : OsStr) :
    Chanoma.fromConfigFile σ w path = (Configuration.loadFileWithExt σ w path >>= fun ms => .ok ⟨ms⟩) := rfl

/-! ## C33 -/

/-- C33 for CSV (the full claim, that loading never panics, is false): for a readable file with
the rows `rows` after the header, `from_config_file` panics exactly if some row has two or more
cells, one of them empty; otherwise it succeeds. -/
theorem C33_csv_panics_iff (σ : Oracle) (w : World) (path : OsStr) (hext : HasExt path (p! "csv"))
    (b : List UInt8) (rows : List (List Str)) (hrows : CsvRows b rows)
    (hfile : w.entry path = some (.file b)) :
    ((∃ r ∈ rows, 2 ≤ r.length ∧ [] ∈ r) ↔ Chanoma.fromConfigFile σ w path = .panic) ∧
    ((¬ ∃ r ∈ rows, 2 ≤ r.length ∧ [] ∈ r) ↔ ∃ c, Chanoma.fromConfigFile σ w path = .ok c) := by
  have hiff : (∃ r ∈ rows, 2 ≤ r.length ∧ [] ∈ r) ↔ ¬ CellsNonEmpty (rows.flatMap rowItems) := by
    rw [rows_nonempty_iff]
    constructor
    · rintro ⟨r, h1, h2, h3⟩ h; exact h r h1 h2 h3
    · intro h
      apply Classical.byContradiction
      intro hc
      exact h fun r h1 h2 h3 => hc ⟨r, h1, h2, h3⟩
  rw [hiff]
  by_cases hc : CellsNonEmpty (rows.flatMap rowItems)
  · obtain ⟨x, -, h⟩ := loadCsv_ok (σ := σ) hfile hrows (fromPath_csv hext) hc
    rw [fromConfigFile_eq, h]
    simp [hc]
  · rw [fromConfigFile_eq, loadCsv_panic hfile hrows (fromPath_csv hext) hc]
    simp [hc]

/-- C33 for YAML: the exact outcome for every document.  It is `Ok` if the document describes a
table without empty cells and a list of modifiers, `Err` if the table is fine and the first bad
modifier is unknown or has a forbidden parameter, and a panic in all other cases. -/
theorem C33_yaml_outcome (σ : Oracle) (w : World) (path : OsStr)
    (hext : HasExt path (p! "yaml") ∨ HasExt path (p! "yml")) (s : List UInt8) (data : YValue)
    (hfile : w.entry path = some (.file s)) (hyaml : w.parseYaml s = some data) :
    ((DocTable data ∧ ∃ steps, DocSteps data steps) ↔ ∃ c, Chanoma.fromConfigFile σ w path = .ok c) ∧
    (∀ e, Chanoma.fromConfigFile σ w path = .err e ↔
      DocTable data ∧ ∃ msg, DocRejected data msg ∧ e = .modifierKindParse msg) ∧
    (((DocTable data → ¬ ∃ steps, DocSteps data steps) ∧
        (DocTable data → ¬ ∃ msg, DocRejected data msg)) ↔
      Chanoma.fromConfigFile σ w path = .panic) := by
  have hf : YamlFile w path data := ⟨s, hfile, hyaml⟩
  have he := fromPath_yaml hext
  rw [fromConfigFile_eq]
  by_cases ht : DocTable data
  · by_cases hr : ∃ msg, DocRejected data msg
    · obtain ⟨msg, hr⟩ := hr
      have h2 := docRejected_err hr σ
      have hns : ¬ ∃ steps, DocSteps data steps := by
        rintro ⟨ss, hs⟩
        obtain ⟨ms, -, h1⟩ := docSteps_ok hs σ
        rw [h1] at h2; cases h2
      have hu : ∀ msg', DocRejected data msg' → msg' = msg := by
        intro msg' h'
        have := docRejected_err h' σ
        rw [h2] at this; cases this; rfl
      have hex : ∃ msg, DocRejected data msg := ⟨msg, hr⟩
      rw [loadYaml_err (σ := σ) hf he ht hr]
      refine ⟨by simp [hns], fun e => ?_, by simp [ht, hex]⟩
      constructor
      · rintro ⟨⟩; exact ⟨ht, msg, hr, rfl⟩
      · rintro ⟨-, msg', h', rfl⟩; rw [hu msg' h']; rfl
    · by_cases hs : ∃ steps, DocSteps data steps
      · obtain ⟨ss, hs'⟩ := hs
        obtain ⟨items, hi, hc⟩ := ht
        obtain ⟨ms, x, -, -, h⟩ := loadYaml_ok (σ := σ) hf he hi hc hs'
        have hs : ∃ steps, DocSteps data steps := ⟨ss, hs'⟩
        have ht : DocTable data := ⟨items, hi, hc⟩
        rw [h]
        have hr' : ∀ msg, ¬ DocRejected data msg := fun msg h => hr ⟨msg, h⟩
        simp [ht, hr', hs]
      · rw [loadYaml_panic_modifiers hf he hs hr]
        have hr' : ∀ msg, ¬ DocRejected data msg := fun msg h => hr ⟨msg, h⟩
        simp [ht, hr', hs]
  · rw [loadYaml_panic_items hf he ht]
    simp [ht]

/-- C33: the errors for files that cannot be read, for CSV files with rows that are not UTF-8, for
YAML files that do not parse, and for paths without a known extension. -/
theorem C33_unreadable (σ : Oracle) (w : World) (path : OsStr) :
    (HasExt path (p! "csv") → (¬ ∃ b rows, w.entry path = some (.file b) ∧ CsvRows b rows) →
      Chanoma.fromConfigFile σ w path = .err .csvFileLoad) ∧
    ((HasExt path (p! "yaml") ∨ HasExt path (p! "yml")) →
      ((∀ b, w.entry path = some (.file b) → w.parseYaml b = none) →
        (∃ b, w.entry path = some (.file b)) ∨ w.entry path = some .dir →
        Chanoma.fromConfigFile σ w path = .err .yamlFileLoad) ∧
      (w.entry path = none ∨ w.entry path = some .denied →
        Chanoma.fromConfigFile σ w path = .err .io)) ∧
    (∀ ext : Str, HasExt path (strBytes ext) → ext ∉ [c! "csv", c! "yaml", c! "yml"] →
      Chanoma.fromConfigFile σ w path = .err (.unsupportedFileExtension ext)) ∧
    (∀ ext, HasExt path ext → ¬ IsUtf8 ext →
      Chanoma.fromConfigFile σ w path = .err (.fileExtensionCanNotConvertToStr path)) ∧
    ((¬ ∃ ext, HasExt path ext) →
      Chanoma.fromConfigFile σ w path = .err (.fileExtensionNotFoundInPath path)) := by
  have hyaml : ∀ e, (HasExt path (p! "yaml") ∨ HasExt path (p! "yml")) → readYaml w path = .err e →
      Chanoma.fromConfigFile σ w path = .err e := by
    intro e hext h1
    rw [fromConfigFile_eq]
    unfold Configuration.loadFileWithExt Configuration.loadItemsToCharacterConverter tableFromYamlPath
    simp [fromPath_yaml hext, h1]
  have herr : ∀ e, FileExtension.fromPath path = .err e → Chanoma.fromConfigFile σ w path = .err e := by
    intro e h1
    rw [fromConfigFile_eq]
    unfold Configuration.loadFileWithExt
    rw [h1]; rfl
  refine ⟨fun hext h => ?_, fun hext => ⟨fun h h' => hyaml _ hext ?_, fun h => hyaml _ hext ?_⟩,
    fun ext hx hm => herr _ ?_, fun ext hx hn => herr _ (fromPath_nonUtf8 hx hn), fun h => herr _ ?_⟩
  · have h1 : tableFromCsvPath w path = .err .csvFileLoad := (C28_loading_is_total w path).2.1.mp h
    rw [fromConfigFile_eq]
    unfold Configuration.loadFileWithExt Configuration.loadItemsToCharacterConverter
    simp [fromPath_csv hext, h1]
  · unfold readYaml
    rcases h' with ⟨b, hb⟩ | h'
    · simp [hb, h b hb]
    · simp [h']
  · unfold readYaml
    rcases h with h | h <;> simp [h]
  · rw [fromPath_ext hx]
    have hnd : 0x2E ∉ strBytes ext := by obtain ⟨_, _, _, h⟩ := hx; exact h
    simp only [List.mem_cons, List.not_mem_nil, or_false, not_or] at hm
    unfold FileExtension.fromStr
    rw [if_neg, if_neg]
    · rintro (rfl | rfl | rfl | rfl) <;> first | exact hm.2.1 rfl | exact hm.2.2 rfl | exact hnd (by decide +kernel)
    · rintro (rfl | rfl) <;> first | exact hm.1 rfl | exact hnd (by decide +kernel)
  · unfold FileExtension.fromPath
    rw [extension_none.mpr h]

/-- C33 refuted: a CSV file with an empty cell, and YAML files with a non-string item, with an
empty reducer parameter and with a list of modifiers. -/
theorem C33_panics_exist (σ : Oracle) :
    (∃ w, w.entry (p! "/c.csv") = some (.text (c! "from,to\na,\n")) ∧
      Chanoma.fromConfigFile σ w (p! "/c.csv") = .panic) ∧
    (∃ w s, w.entry (p! "/c.yaml") = some (.file s) ∧ w.parseYaml s =
        some (.mapping [(.string (c! "items"), .mapping [(.string (c! "C"), .number (c! "1"))])]) ∧
      Chanoma.fromConfigFile σ w (p! "/c.yaml") = .panic) ∧
    (∃ w s, w.entry (p! "/c.yaml") = some (.file s) ∧ w.parseYaml s =
        some (.mapping [(.string (c! "modifiers"),
          .mapping [(.string (c! "consecutive_character_reducer"), .string [])])]) ∧
      Chanoma.fromConfigFile σ w (p! "/c.yaml") = .panic) ∧
    (∃ w s, w.entry (p! "/c.yaml") = some (.file s) ∧ w.parseYaml s =
        some (.mapping [(.string (c! "modifiers"), .sequence [.string (c! "trim")])]) ∧
      Chanoma.fromConfigFile σ w (p! "/c.yaml") = .panic) :=
  ⟨⟨.ofFiles [(p! "/c.csv", .text (c! "from,to\na,\n"))], rfl, rfl⟩,
   ⟨.ofFiles [(p! "/c.yaml", .text (c! "x"))] (fun _ =>
      some (.mapping [(.string (c! "items"), .mapping [(.string (c! "C"), .number (c! "1"))])])),
    _, rfl, rfl, rfl⟩,
   ⟨.ofFiles [(p! "/c.yaml", .text (c! "x"))] (fun _ =>
      some (.mapping [(.string (c! "modifiers"),
          .mapping [(.string (c! "consecutive_character_reducer"), .string [])])])),
    _, rfl, rfl, rfl⟩,
   ⟨.ofFiles [(p! "/c.yaml", .text (c! "x"))] (fun _ =>
      some (.mapping [(.string (c! "modifiers"), .sequence [.string (c! "trim")])])),
    _, rfl, rfl, rfl⟩⟩

/-! ## C34 -/

/-- C34 refuted: every YAML document whose `items` is not a mapping panics, in particular every
list of `{from, to}` entries. -/
theorem C34_list_format_panics (σ : Oracle) (w : World) (path : OsStr)
    (hext : HasExt path (p! "yaml") ∨ HasExt path (p! "yml")) (s : List UInt8) (data v : YValue)
    (hfile : w.entry path = some (.file s)) (hyaml : w.parseYaml s = some data)
    (hitems : HasField data (c! "items") v) (hv : ∀ l, v ≠ .mapping l) :
    Chanoma.fromConfigFile σ w path = .panic ∧ tableFromYamlPath w path = .panic := by
  have hnd : ¬ ∃ items, DocItems data items := by
    rintro ⟨items, ⟨h, -⟩ | ⟨l, h, -⟩⟩
    · exact hitems.not_noField h
    · exact hv l (hitems.unique h)
  refine ⟨?_, ?_⟩
  · rw [fromConfigFile_eq, loadYaml_panic_items ⟨s, hfile, hyaml⟩ (fromPath_yaml hext)
      (fun ⟨items, h, _⟩ => hnd ⟨items, h⟩)]
    rfl
  · have := (docItems_cases data).resolve_right hnd
    unfold tableFromYamlPath
    rw [yamlFile_read ⟨s, hfile, hyaml⟩, Outcome.ok_bind, this]
    rfl

/-- C34: what loads is the mapping format: exactly the documents with no `items`, or with a mapping
from targets to a source or a list of sources, and they load to these items in order. -/
theorem C34_mapping_format (w : World) (path : OsStr) (s : List UInt8) (data : YValue)
    (hfile : w.entry path = some (.file s)) (hyaml : w.parseYaml s = some data) :
    (∀ items, DocItems data items ↔
      tableFromYamlPath w path = .ok (Table.fromCorr items (.configurationFile path))) ∧
    ((¬ ∃ items, DocItems data items) ↔ tableFromYamlPath w path = .panic) := by
  have e : tableFromYamlPath w path =
      (yamlItems data >>= fun items => .ok (Table.fromCorr items (.configurationFile path))) := by
    unfold tableFromYamlPath
    rw [yamlFile_read ⟨s, hfile, hyaml⟩]
    rfl
  rw [e]
  rcases docItems_cases data with h | ⟨is, h⟩
  · have hno : ∀ items, ¬ DocItems data items := fun items hi => by
      rw [docItems_ok hi] at h; cases h
    rw [h]
    refine ⟨fun items => by simp [hno], by simp [hno]⟩
  · rw [docItems_ok h]
    refine ⟨fun items => ⟨fun hi => by rw [hi.unique h]; rfl, fun hi => ?_⟩, ?_⟩
    · rw [Outcome.ok_bind] at hi
      cases hi
      exact h
    · constructor
      · intro hn; exact absurd ⟨is, h⟩ hn
      · intro hc; cases hc

/-- The list format of `/repo/examples/file/table.yaml` meets the hypotheses of C34. -/
example : HasField (.mapping [(.string (c! "items"), .sequence [
      .mapping [(.string (c! "from"), .sequence [.string (c! "sea"), .string (c! "see")]),
        (.string (c! "to"), .string (c! "C"))]])]) (c! "items")
      (.sequence [.mapping [(.string (c! "from"), .sequence [.string (c! "sea"), .string (c! "see")]),
        (.string (c! "to"), .string (c! "C"))]]) ∧
    HasExt (p! "/etc/table.yaml") (p! "yaml") :=
  ⟨⟨[], [], rfl, by simp⟩, p! "table", ⟨p! "/etc/", [], rfl, by decide, .nil, by decide, by decide,
    by decide, by decide⟩, by decide, by decide⟩

/-- A document in the mapping format. -/
example : DocItems (.mapping [(.string (c! "items"), .mapping [
      (.string (c! "C"), .sequence [.string (c! "c"), .string (c! "sea")]),
      (.string (c! "D"), .string (c! "d"))])])
    [⟨c! "c", c! "C"⟩, ⟨c! "sea", c! "C"⟩, ⟨c! "d", c! "D"⟩] :=
  .inr ⟨_, ⟨[], [], rfl, by simp⟩,
    .cons (.many (c! "C") [c! "c", c! "sea"]) (.cons (.one (c! "D") (c! "d")) .nil)⟩

/-! ## C35 -/

/-- C35: a YAML file that describes the modifiers `steps` and the table `items` loads to one
modifier per step, in order, plus one; normalising runs the steps in order and then substitutes
by the items. -/
theorem C35_yaml_pipeline (σ : Oracle) (w : World) (path : OsStr)
    (hext : HasExt path (p! "yaml") ∨ HasExt path (p! "yml")) (s : List UInt8) (data : YValue)
    (hfile : w.entry path = some (.file s)) (hyaml : w.parseYaml s = some data)
    (items : List Item) (hi : DocItems data items) (hc : CellsNonEmpty items)
    (steps : List Step) (hs : DocSteps data steps) :
    ∃ c, Chanoma.fromConfigFile σ w path = .ok c ∧ c.modifiers.length = steps.length + 1 ∧
      ∀ σs debug text, ∃ mid, StepsMake steps text mid ∧
        c.normalize σs debug text = .ok (substitute (itemSubst items) mid) := by
  obtain ⟨ms, x, h1, h2, h3⟩ := loadYaml_ok (σ := σ) ⟨s, hfile, hyaml⟩ (fromPath_yaml hext) hi hc hs
  refine ⟨⟨ms ++ [.characterConverter x]⟩, by rw [fromConfigFile_eq, h3]; rfl, by simp [h1.length],
    fun σs debug text => ?_⟩
  obtain ⟨o, h4, h5⟩ := realizes_run h1 σs 0 text
  refine ⟨o, h5, ?_⟩
  have hfalse : (Chanoma.mk (ms ++ [.characterConverter x])).normalize σs false text =
      .ok (substitute (itemSubst items) o) := by
    unfold Chanoma.normalize
    simp only [Bool.not_false, if_true, List.zipIdx_append, List.foldlM_append, h4, Outcome.ok_bind]
    simp only [List.zipIdx_cons, List.zipIdx_nil, List.foldlM_cons, List.foldlM_nil,
      ModifierKind.modify, modify_eq, h2, Outcome.ok_bind, Outcome.pure_eq]
  cases debug with
  | false => exact hfalse
  | true =>
    have hwf : ∀ m ∈ (Chanoma.mk (ms ++ [.characterConverter x])).modifiers, m.WF := by
      intro m hm
      rcases List.mem_append.mp hm with hm | hm
      · exact h1.wf m hm
      · simp at hm; subst hm; trivial
    obtain ⟨rs, h6, h7, h8⟩ := pipeline_eq _ hwf σs text
    rw [hfalse] at h8
    have hrs : rs ≠ [] := by
      intro e
      have := chained_length h6
      rw [e] at this
      simp at this
    have := records_text rs text hrs
    unfold Chanoma.normalize
    simp only [Bool.not_true, Bool.false_eq_true, if_false, h7, Outcome.ok_bind, this]
    exact h8.symm

/-- C35: a CSV file without empty cells loads to exactly one converter for its items. -/
theorem C35_csv_pipeline (σ : Oracle) (w : World) (path : OsStr) (hext : HasExt path (p! "csv"))
    (b : List UInt8) (rows : List (List Str)) (hrows : CsvRows b rows)
    (hfile : w.entry path = some (.file b)) (hc : CellsNonEmpty (rows.flatMap rowItems)) :
    ∃ c, Chanoma.fromConfigFile σ w path = .ok c ∧ c.modifiers.length = 1 ∧
      ∀ σs debug text,
        c.normalize σs debug text = .ok (substitute (itemSubst (rows.flatMap rowItems)) text) := by
  obtain ⟨x, h1, h2⟩ := loadCsv_ok (σ := σ) hfile hrows (fromPath_csv hext) hc
  refine ⟨⟨[.characterConverter x]⟩, by rw [fromConfigFile_eq, h2]; rfl, rfl, fun σs debug text => ?_⟩
  rw [← h1]
  cases debug with
  | false => simp [Chanoma.normalize, ModifierKind.modify, modify_eq]
  | true =>
    obtain ⟨ps, h, _⟩ := modifyWithPositions_eq x (σs 0) text
    simp [Chanoma.normalize, Chanoma.normalizeWithPositions, ModifierKind.modifyWithPositions, h,
      ModifiedRecords.text, unwrap]

/-- A document with all kinds of modifiers. -/
def exampleDoc : YValue := .mapping [
  (.string (c! "items"), .mapping [(.string (c! "C"), .string (c! "c"))]),
  (.string (c! "modifiers"), .mapping [
    (.string (c! "trim"), .null),
    (.string (c! "character_eliminator"), .sequence [.string (c! "-"), .string (c! "!?")]),
    (.string (c! "ligature_translator"), .mapping [(.string (c! "か゛"), .string (c! "が"))]),
    (.string (c! "consecutive_character_reducer"), .string (c! "ー")),
    (.string (c! "character_converter"), .mapping [(.string (c! "a"), .string (c! "bc"))]),
    (.string (c! "dotted_space_eliminator"), .null),
    (.string (c! "neologdn"), .null)])]

theorem exampleDoc_steps : DocSteps exampleDoc [.trim, .eliminate ['-', '!'],
    .ligature [(c! "か゛", c! "が")], .reduce 'ー', .convert [('a', 'b')], .spaces, .neologdn] :=
  .inr ⟨_, ⟨[(.string (c! "items"), .mapping [(.string (c! "C"), .string (c! "c"))])], [], rfl, by
      intro e he
      simp at he; subst he
      intro h; cases h⟩,
    .cons .trim (.cons (.eliminate [('-', []), ('!', c! "?")])
      (.cons (.ligature [(c! "か゛", c! "が")]) (.cons (.reduce 'ー' [])
        (.cons (.convert [(('a', []), ('b', c! "c"))]) (.cons .spaces (.cons .neologdn .nil))))))⟩

theorem exampleDoc_items : DocItems exampleDoc [⟨c! "c", c! "C"⟩] :=
  .inr ⟨_, ⟨[], _, rfl, by simp⟩, .cons (.one (c! "C") (c! "c")) .nil⟩

/-- The hypotheses of C35 are met, and the modifiers run before the items. -/
example : (Chanoma.fromConfigFile .insertion (.ofFiles [(p! "/c.yml", .text [])]
      (fun _ => some exampleDoc)) (p! "/c.yml") >>= fun c =>
        c.normalize (fun _ => .insertion) false (c! " a-c!か゛ ーー ")) = .ok (c! "bCがー") ∧
    CellsNonEmpty [⟨c! "c", c! "C"⟩] ∧ HasExt (p! "/c.yml") (p! "yml") :=
  ⟨by decide +kernel, by decide, p! "c", ⟨p! "/", [], rfl, by decide, .nil, by decide, by decide,
    by decide, by decide⟩, by decide, by decide⟩

/-! ## C36 -/

/-- C36: if the table is fine and all entries before it describe modifiers, an unknown modifier (or
a parameter given to a modifier that has none) is reported as a `ModifierKindParseError` that names
it. -/
theorem C36_unknown_modifier (σ : Oracle) (w : World) (path : OsStr)
    (hext : HasExt path (p! "yaml") ∨ HasExt path (p! "yml")) (s : List UInt8) (data : YValue)
    (hfile : w.entry path = some (.file s)) (hyaml : w.parseYaml s = some data)
    (ht : DocTable data) (pre post : List (YValue × YValue)) (steps : List Step) (k v : YValue)
    (hm : HasField data (c! "modifiers") (.mapping (pre ++ (k, v) :: post)))
    (hpre : DescribesAll pre steps) (msg : Str) (hr : Rejected k v msg) :
    Chanoma.fromConfigFile σ w path = .err (.modifierKindParse msg) := by
  rw [fromConfigFile_eq, loadYaml_err (σ := σ) ⟨s, hfile, hyaml⟩ (fromPath_yaml hext) ht
    ⟨pre, steps, k, v, post, hm, hpre, hr⟩]
  rfl

/-- C36: a file with an unknown modifier name never loads, whatever else it contains. -/
theorem C36_never_ok (σ : Oracle) (w : World) (path : OsStr)
    (hext : HasExt path (p! "yaml") ∨ HasExt path (p! "yml")) (s : List UInt8) (data : YValue)
    (hfile : w.entry path = some (.file s)) (hyaml : w.parseYaml s = some data)
    (l : List (YValue × YValue)) (hm : HasField data (c! "modifiers") (.mapping l))
    (name : Str) (v : YValue) (hmem : (.string name, v) ∈ l)
    (hname : name ∉ plainNames ∧ name ∉ parameterNames) (c : Chanoma) :
    Chanoma.fromConfigFile σ w path ≠ .ok c := by
  intro hc
  obtain ⟨-, steps, hs⟩ := ((C33_yaml_outcome σ w path hext s data hfile hyaml).1).mpr ⟨c, hc⟩
  rcases hs with ⟨h, -⟩ | ⟨l', h, hd⟩
  · exact hm.not_noField h
  · have := hm.unique h
    cases this
    clear hm h hc
    induction hd with
    | nil => simp at hmem
    | @cons k v' st l ss hd _ ih =>
      rcases List.mem_cons.mp hmem with h | h
      · have : ∃ msg, Rejected k v' msg := by
          cases h; exact ⟨_, .unknown _ hname.1 hname.2⟩
        obtain ⟨msg, this⟩ := this
        have h1 := rejected_err this σ
        obtain ⟨m, h2, -⟩ := describes_ok hd σ
        rw [h1] at h2; cases h2
      · exact ih h

example : Rejected (.string (c! "uppercase")) (.bool true) (c! "specified key uppercase does not exists.") :=
  .unknown _ (by decide) (by decide)
example : DocTable exampleDoc ∧ DescribesAll [(.string (c! "trim"), .null)] [.trim] :=
  ⟨⟨_, exampleDoc_items, by decide⟩, .cons .trim .nil⟩

/-! ## C37, C38, C39, C40 -/

theorem loadRc_env {σ : Oracle} {w : World} {p : Str} (h : w.chanomarc = some (strBytes p)) :
    Chanoma.loadRc σ w = (Configuration.validFilePath w (strBytes p) >>= fun paths =>
      (if paths.isEmpty then .ok [] else paths.mapM (Configuration.loadFileWithExt σ w) >>= fun r =>
        .ok r.flatten) >>= fun ms => .ok ⟨ms⟩) := by
  unfold Chanoma.loadRc Configuration.load Configuration.filePaths
  rw [filePathFromEnv_some h]
  show (Configuration.validFilePath w (strBytes p) >>= _) >>= _ = _
  cases Configuration.validFilePath w (strBytes p) with
  | ok paths => cases paths <;> rfl
  | err e => rfl
  | panic => rfl

theorem loadFile_local {σ : Oracle} {w w' : World} {p : OsStr} (h1 : w.entry p = w'.entry p)
    (h2 : w.parseYaml = w'.parseYaml) :
    Configuration.loadFileWithExt σ w p = Configuration.loadFileWithExt σ w' p := by
  have hc : tableFromCsvPath w p = tableFromCsvPath w' p := by unfold tableFromCsvPath; rw [h1]
  have hr : readYaml w p = readYaml w' p := by unfold readYaml; rw [h1, h2]
  unfold Configuration.loadFileWithExt Configuration.loadItemsToCharacterConverter
    Configuration.loadModifiers tableFromYamlPath modifiersFromYamlPath
  rw [hc, hr]

/-- C37: with `CHANOMARC` set, the result depends only on the file it names: environments that
agree on it (and on how YAML is parsed) give the same result, whatever rc files exist in the home
directory or the current directory, and wherever these are. -/
theorem C37_chanomarc_precedence (σ : Oracle) (w w' : World) (p : OsStr)
    (hw : w.chanomarc = some p) (hw' : w'.chanomarc = some p) (hutf8 : IsUtf8 p)
    (hfile : w.entry p = w'.entry p) (hparse : w.parseYaml = w'.parseYaml) : Chanoma.loadRc σ w = Chanoma.loadRc σ w' := by
  obtain ⟨p, rfl⟩ := hutf8
  rw [loadRc_env hw, loadRc_env hw']
  generalize strBytes p = p at *
  have h1 : w.isFile p = w'.isFile p := by unfold World.isFile; rw [hfile]
  have h2 : Configuration.validFilePath w p = Configuration.validFilePath w' p := by
    unfold Configuration.validFilePath; rw [h1]
  rw [h2]
  have h3 : ∀ paths, Configuration.validFilePath w' p = .ok paths → paths = [p] := by
    intro paths h
    unfold Configuration.validFilePath at h
    split at h
    · cases h
    · rw [bind_eq_ok] at h
      obtain ⟨e, -, h⟩ := h
      rw [bind_eq_ok] at h
      obtain ⟨e', -, h⟩ := h
      split at h
      · cases h
      · cases h; rfl
  cases hv : Configuration.validFilePath w' p with
  | ok paths =>
    rw [h3 paths hv]
    simp only [Outcome.ok_bind, List.mapM_cons, List.mapM_nil, loadFile_local hfile hparse]
  | err e => rfl
  | panic => rfl

theorem loadRc_search {σ : Oracle} {w : World} (hw : ¬ ChanomarcSet w) :
    Chanoma.loadRc σ w = ((rcCandidates w).filter w.isFile).mapM (Configuration.loadFileWithExt σ w) >>=
      fun r => .ok ⟨r.flatten⟩ := by
  unfold Chanoma.loadRc Configuration.load Configuration.filePaths Configuration.existsFilePaths
  rw [filePathFromEnv_none hw, autoLoadPaths_eq]
  simp only [Outcome.ok_bind]
  cases h : (rcCandidates w).filter w.isFile with
  | nil => rfl
  | cons p ps =>
    simp only [List.isEmpty_cons, Bool.false_eq_true, if_false, Outcome.pure_eq]
    cases (p :: ps).mapM (Configuration.loadFileWithExt σ w) <;> rfl

/-- C37 (the full claim, that `CHANOMARC` takes precedence, is false for values that are not valid
UTF-8): such a value is ignored without an error. -/
theorem C37_not_unicode_ignored (σ : Oracle) (w : World) (v : OsStr) (hw : w.chanomarc = some v)
    (hv : ¬ IsUtf8 v) : Chanoma.loadRc σ w = Chanoma.loadRc σ { w with chanomarc := none } := by
  have h1 : ¬ ChanomarcSet w := by
    rintro ⟨v', h, h'⟩
    rw [hw] at h; cases h
    exact hv h'
  have h2 : ¬ ChanomarcSet { w with chanomarc := none } := by rintro ⟨v', h, -⟩; cases h
  rw [loadRc_search h1, loadRc_search h2]
  rfl

/-- A value of `CHANOMARC` and a file extension that are not valid UTF-8. -/
example : ¬ IsUtf8 [0x2F, 0x72, 0x63, 0xFF] ∧ ¬ IsUtf8 [0xE3, 0x81] ∧
    HasExt [0x61, 0x2E, 0xE3, 0x81] [0xE3, 0x81] := by
  refine ⟨?_, ?_, [0x61], ⟨[], [], rfl, by decide, .nil, by decide, by decide, by decide,
    by decide⟩, by decide, by decide⟩
  all_goals
    rintro ⟨s, h⟩
    have hs := congrArg Option.isSome ((strFromUtf8_eq_some_iff _ s).mpr h.symm)
    rw [Option.isSome_some] at hs
    exact absurd hs (by decide +kernel)

/-- C40 (the full claim, that a bad `CHANOMARC` is an error, is false): the exact outcome for every
environment. -/
theorem C40_chanomarc_outcome (σ : Oracle) (w : World) (p : OsStr) (hw : w.chanomarc = some p)
    (hutf8 : IsUtf8 p) :
    (¬ IsFile w p → Chanoma.loadRc σ w = .err (.rcFileLoad p)) ∧
    (IsFile w p → (¬ ∃ ext, HasExt p ext) → Chanoma.loadRc σ w = .panic) ∧
    (∀ ext, IsFile w p → HasExt p ext → ext ≠ p! "csv" → ext ≠ p! "yaml" →
      Chanoma.loadRc σ w = .err (.rcFileLoad p)) ∧
    (∀ ext, IsFile w p → HasExt p ext → ext = p! "csv" ∨ ext = p! "yaml" →
      Chanoma.loadRc σ w = Chanoma.fromConfigFile σ w p) := by
  obtain ⟨p, rfl⟩ := hutf8
  rw [loadRc_env hw]
  unfold Configuration.validFilePath
  refine ⟨fun h => ?_, fun h hx => ?_, fun ext h hx h1 h2 => ?_, fun ext h hx h1 => ?_⟩
  · have : w.isFile (strBytes p) = false := by
      rw [← Bool.not_eq_true, isFile_iff]; exact h
    simp [this]
  · rw [isFile_iff.mpr h, extension_none.mpr hx]
    rfl
  · obtain ⟨ext, rfl⟩ := hx.utf8
    rw [isFile_iff.mpr h, extension_iff.mpr hx]
    have : FileExtension.all.all (fun e => e.toString != ext) = true := by
      rw [← strBytes_csv] at h1
      rw [← strBytes_yaml] at h2
      have h1 : ext ≠ c! "csv" := fun e => h1 (by rw [e])
      have h2 : ext ≠ c! "yaml" := fun e => h2 (by rw [e])
      simp [FileExtension.all, FileExtension.toString, Ne.symm h1, Ne.symm h2]
    simp only [unwrap, Bool.not_true, Bool.false_eq_true, if_false, Outcome.ok_bind,
      strFromUtf8_strBytes, this, if_true, Outcome.err_bind]
  · obtain ⟨ext, rfl⟩ := hx.utf8
    rw [isFile_iff.mpr h, extension_iff.mpr hx]
    have : FileExtension.all.all (fun e => e.toString != ext) = false := by
      rw [← strBytes_csv, ← strBytes_yaml] at h1
      rcases h1 with h1 | h1 <;> (rw [strBytes_inj h1]; decide)
    simp only [Bool.not_true, Bool.false_eq_true, if_false, unwrap, Outcome.ok_bind,
      strFromUtf8_strBytes, this,
      Outcome.pure_eq, List.isEmpty_cons, List.mapM_cons, List.mapM_nil, fromConfigFile_eq]
    cases Configuration.loadFileWithExt σ w (strBytes p) <;> simp

/-- C40 refuted: a readable file without extension. -/
theorem C40_panics (σ : Oracle) : ∃ w : World, w.chanomarc = some (p! "/home/u/chanomarc") ∧
    w.entry (p! "/home/u/chanomarc") = some (.text (c! "from,to\na,A\n")) ∧
    Chanoma.loadRc σ w = .panic :=
  ⟨.ofFiles [(p! "/home/u/chanomarc", .text (c! "from,to\na,A\n"))] (chanomarc := some (p! "/home/u/chanomarc")),
   rfl, rfl, rfl⟩

/-- C39 refuted for `CHANOMARC`: a `.yml` file is rejected in every environment, although
`from_config_file` accepts it (C35). -/
theorem C39_yml_chanomarc (σ : Oracle) (w : World) (p : OsStr) (hw : w.chanomarc = some p)
    (hutf8 : IsUtf8 p) (hext : HasExt p (p! "yml")) : Chanoma.loadRc σ w = .err (.rcFileLoad p) := by
  by_cases h : IsFile w p
  · exact (C40_chanomarc_outcome σ w p hw hutf8).2.2.1 _ h hext (by decide) (by decide)
  · exact (C40_chanomarc_outcome σ w p hw hutf8).1 h

/-- C39 refuted for discovery: files with the extension `.yml` play no role in the search for rc
files. -/
theorem C39_yml_not_discovered (σ : Oracle) (w w' : World)
    (hw : ¬ ChanomarcSet w) (hw' : ¬ ChanomarcSet w') (hh : w.home = w'.home) (hd : w.cwd = w'.cwd)
    (hparse : w.parseYaml = w'.parseYaml)
    (hfiles : ∀ p, ¬ HasExt p (p! "yml") → w.entry p = w'.entry p) :
    Chanoma.loadRc σ w = Chanoma.loadRc σ w' := by
  rw [loadRc_search hw, loadRc_search hw']
  have hc : rcCandidates w = rcCandidates w' := by unfold rcCandidates; rw [hh, hd]
  have he : ∀ p ∈ rcCandidates w', w.entry p = w'.entry p := by
    intro p hp
    apply hfiles
    intro hy
    rcases rcCandidates_ext hp with h | h <;> exact absurd (h.unique hy) (by decide)
  have hf : (rcCandidates w').filter w.isFile = (rcCandidates w').filter w'.isFile := by
    apply List.filter_congr
    intro p hp
    unfold World.isFile; rw [he p hp]
  rw [hc, hf]
  have hm : ∀ l : List OsStr, (∀ p ∈ l, w.entry p = w'.entry p) →
      l.mapM (Configuration.loadFileWithExt σ w) = l.mapM (Configuration.loadFileWithExt σ w') := by
    intro l hl
    induction l with
    | nil => rfl
    | cons p l ih =>
      rw [List.mapM_cons, List.mapM_cons, loadFile_local (hl p (by simp)) hparse,
        ih fun p hp => hl p (by simp [hp])]
  rw [hm _ fun p hp => he p ((List.mem_filter.mp hp).1)]

/-- C39: `from_config_file` itself treats `.yml` like `.yaml`. -/
theorem C39_yml_config_file (σ : Oracle) (w : World) (p q : OsStr) (hp : HasExt p (p! "yml"))
    (hq : HasExt q (p! "yaml")) (hsame : w.entry p = w.entry q) :
    Chanoma.fromConfigFile σ w p = Chanoma.fromConfigFile σ w q := by
  rw [fromConfigFile_eq, fromConfigFile_eq]
  have hr : readYaml w p = readYaml w q := by unfold readYaml; rw [hsame]
  unfold Configuration.loadFileWithExt Configuration.loadItemsToCharacterConverter
    Configuration.loadModifiers tableFromYamlPath modifiersFromYamlPath
  rw [fromPath_yaml (.inr hp), fromPath_yaml (.inl hq)]
  simp only [Outcome.ok_bind, hr]
  cases readYaml w q with
  | ok data =>
    simp only [Outcome.ok_bind]
    cases yamlItems data with
    | ok items => rfl
    | err e => rfl
    | panic => rfl
  | err e => rfl
  | panic => rfl

open Classical in
/-- C38: with `CHANOMARC` unset and `found` the existing files among the documented places, in the
documented order: if all of them load, the result is the concatenation of their pipelines (the empty
pipeline if there are none); otherwise the first failing file decides. -/
theorem C38_search_order (σ : Oracle) (w : World) (hw : ¬ ChanomarcSet w) (found : List OsStr)
    (hfound : found = (rcCandidates w).filter fun p => decide (IsFile w p)) :
    (∀ cs : List Chanoma, found.map (Chanoma.fromConfigFile σ w) = cs.map .ok →
      Chanoma.loadRc σ w = .ok ⟨cs.flatMap (·.modifiers)⟩) ∧
    (∀ (pre : List OsStr) (p : OsStr) (post : List OsStr) (cs : List Chanoma) (e : Error),
      found = pre ++ p :: post → pre.map (Chanoma.fromConfigFile σ w) = cs.map .ok →
      Chanoma.fromConfigFile σ w p = .err e → Chanoma.loadRc σ w = .err e) ∧
    (∀ (pre : List OsStr) (p : OsStr) (post : List OsStr) (cs : List Chanoma),
      found = pre ++ p :: post → pre.map (Chanoma.fromConfigFile σ w) = cs.map .ok →
      Chanoma.fromConfigFile σ w p = .panic → Chanoma.loadRc σ w = .panic) := by
  have hf : found = (rcCandidates w).filter w.isFile := by
    rw [hfound]
    apply List.filter_congr
    intro p _
    rw [Bool.eq_iff_iff, decide_eq_true_iff, isFile_iff]
  rw [loadRc_search hw, ← hf]
  clear hf hfound
  have key : ∀ (pre : List OsStr) (cs : List Chanoma) (rest : List OsStr),
      pre.map (Chanoma.fromConfigFile σ w) = cs.map .ok →
      (pre ++ rest).mapM (Configuration.loadFileWithExt σ w) =
        (rest.mapM (Configuration.loadFileWithExt σ w) >>= fun r => .ok (cs.map (·.modifiers) ++ r)) := by
    intro pre
    induction pre with
    | nil =>
      intro cs rest h
      cases cs with
      | nil =>
        simp only [List.nil_append, List.map_nil]
        cases rest.mapM (Configuration.loadFileWithExt σ w) <;> rfl
      | cons _ _ => simp at h
    | cons p pre ih =>
      intro cs rest h
      cases cs with
      | nil => simp at h
      | cons c cs =>
        simp only [List.map_cons, List.cons.injEq] at h
        have hp : Configuration.loadFileWithExt σ w p = .ok c.modifiers := by
          have := h.1
          rw [fromConfigFile_eq, bind_eq_ok] at this
          obtain ⟨ms, h1, h2⟩ := this
          cases h2; exact h1
        rw [List.cons_append, List.mapM_cons, hp, ih cs rest h.2]
        cases rest.mapM (Configuration.loadFileWithExt σ w) <;> simp
  refine ⟨fun cs h => ?_, fun pre p post cs e hsplit h he => ?_, fun pre p post cs hsplit h he => ?_⟩
  · have := key found cs [] h
    rw [List.append_nil] at this
    rw [this]
    simp [List.flatMap]
  · subst hsplit
    have hp : Configuration.loadFileWithExt σ w p = .err e := by
      rw [fromConfigFile_eq] at he
      cases hl : Configuration.loadFileWithExt σ w p <;> rw [hl] at he <;> cases he
      rfl
    rw [key pre cs _ h, List.mapM_cons, hp]; rfl
  · subst hsplit
    have hp : Configuration.loadFileWithExt σ w p = .panic := by
      rw [fromConfigFile_eq] at he
      cases hl : Configuration.loadFileWithExt σ w p <;> rw [hl] at he <;> cases he
    rw [key pre cs _ h, List.mapM_cons, hp]; rfl


/-- The search places for a concrete environment, in order. -/
example : rcCandidates (.ofFiles []) = [
    p! "/home/u/.config/chanoma/chanomarc.csv", p! "/home/u/.config/chanoma/chanomarc.yaml",
    p! "/home/u/.config/chanoma/.chanomarc.csv", p! "/home/u/.config/chanoma/.chanomarc.yaml",
    p! "/home/u/chanomarc.csv", p! "/home/u/chanomarc.yaml",
    p! "/home/u/.chanomarc.csv", p! "/home/u/.chanomarc.yaml",
    p! "/work/chanomarc.csv", p! "/work/chanomarc.yaml",
    p! "/work/.chanomarc.csv", p! "/work/.chanomarc.yaml"] := by decide +kernel

/-- Two rc files: the one in the home directory comes first. -/
example : (Chanoma.loadRc .insertion (.ofFiles
      [(p! "/work/.chanomarc.csv", .text (c! "from,to\nb,c\n")),
       (p! "/home/u/chanomarc.csv", .text (c! "from,to\na,b\n"))]) >>= fun c =>
        c.normalize (fun _ => .insertion) false (c! "ab")) = .ok (c! "cc") := by decide +kernel

/-- `CHANOMARC` wins over both. -/
example : (Chanoma.loadRc .insertion (.ofFiles
      [(p! "/work/.chanomarc.csv", .text (c! "from,to\nb,c\n")), (p! "/x.csv", .text (c! "from,to\na,z\n")),
       (p! "/home/u/chanomarc.csv", .text (c! "from,to\na,b\n"))] (chanomarc := some (p! "/x.csv"))) >>=
        fun c => c.normalize (fun _ => .insertion) false (c! "ab")) = .ok (c! "zb") := by decide +kernel

/-! ## C41 -/

/-- C41: `from_str` accepts exactly `csv`, `yaml` and `yml`, with or without a leading dot. -/
theorem C41_from_str (s : Str) :
    (FileExtension.fromStr s = .ok .csv ↔ s = c! "csv" ∨ s = '.' :: c! "csv") ∧
    (FileExtension.fromStr s = .ok .yaml ↔
      ∃ e ∈ [c! "yaml", c! "yml"], s = e ∨ s = '.' :: e) ∧
    ((∀ e ∈ [c! "csv", c! "yaml", c! "yml"], s ≠ e ∧ s ≠ '.' :: e) ↔
      FileExtension.fromStr s = .err (.unsupportedFileExtension s)) := by
  unfold FileExtension.fromStr
  split
  · rename_i h
    rcases h with rfl | rfl <;> decide
  · split
    · rename_i h
      rcases h with rfl | rfl | rfl | rfl <;> decide
    · rename_i h1 h2
      simp only [not_or] at h1 h2
      simp [h1, h2]

/-- C41: `to_string` followed by `from_str` is the identity. -/
theorem C41_round_trip (e : FileExtension) : FileExtension.fromStr e.toString = .ok e := by
  cases e <;> rfl

/-- C41: `from_path` looks only at the extension of the last component of the path. -/
theorem C41_from_path (path : OsStr) :
    (∀ ext : Str, HasExt path (strBytes ext) → (ext = c! "csv" → FileExtension.fromPath path = .ok .csv) ∧
      (ext = c! "yaml" ∨ ext = c! "yml" → FileExtension.fromPath path = .ok .yaml) ∧
      (ext ∉ [c! "csv", c! "yaml", c! "yml"] →
        FileExtension.fromPath path = .err (.unsupportedFileExtension ext))) ∧
    (∀ ext, HasExt path ext → ¬ IsUtf8 ext →
      FileExtension.fromPath path = .err (.fileExtensionCanNotConvertToStr path)) ∧
    ((¬ ∃ ext, HasExt path ext) →
      FileExtension.fromPath path = .err (.fileExtensionNotFoundInPath path)) := by
  refine ⟨fun ext h => ?_, fun ext h hn => fromPath_nonUtf8 h hn, fun h => ?_⟩
  · rw [fromPath_ext h]
    refine ⟨?_, ?_, fun hn => ?_⟩
    · rintro rfl; rfl
    · rintro (rfl | rfl) <;> rfl
    · rw [(C41_from_str ext).2.2.mp]
      intro e he
      refine ⟨fun hc => hn (hc ▸ he), fun hc => ?_⟩
      obtain ⟨_, _, _, hd⟩ := h
      exact hd (by rw [hc]; simp [strBytes, encode_ascii])
  · unfold FileExtension.fromPath
    rw [extension_none.mpr h]

/-- Paths with several dots, a trailing slash, and a hidden file without extension. -/
example : HasExt (p! "a.csv/b.tar.yml/.") (p! "yml") ∧ ¬ ∃ ext, HasExt (p! "/a.csv/.yaml") ext := by
  constructor
  · exact ⟨p! "b.tar", ⟨p! "a.csv/", p! "/.", rfl, by decide, .dot .nil, by decide, by decide,
      by decide, by decide⟩, by decide, by decide⟩
  · rw [← extension_none]; decide +kernel

/-! ## C50 -/

/-- The preset, with the ideographic space kept. -/
def presetFoldKeepingSpace (c : Char) : Char := if c = '　' then c else presetFold c

theorem output_items (σ : Oracle) :
    ((textParse (outputMainCsv σ)).tail.flatMap rowItems).Perm
      ((TableBuilder.new.preset σ).build.items.filter fun i => i.to ≠ [' ']) := by
  unfold outputMainCsv
  have hs : CsvText [] ['\n'] := .empty (e := ['\n']) (s := []) (by decide) .nil
  rw [export_import _ _ hs]
  apply groups_tail_perm
  · refine ⟨⟨['　'], [' ']⟩, mem_presetTable.mpr ?_, rfl⟩
    decide +kernel
  · intro i hi
    rw [← strLe_iff_lexLe]
    have : ∀ i ∈ presetConsts, strLe [' '] i.to = true := by decide +kernel
    exact this i (mem_presetTable.mp hi)

/-- C50: if the output of the `output` binary is saved as a CSV file, loading this file, directly
or through `CHANOMARC`, gives a normaliser that behaves like the preset except that U+3000
stays. -/
theorem C50_output_reimported (σ τ : Oracle) (w : World) (path : OsStr) (hext : HasExt path (p! "csv"))
    (hfile : w.entry path = some (.text (outputMainCsv σ))) :
    (∃ c, Chanoma.fromConfigFile τ w path = .ok c ∧
      ∀ σs debug text, c.normalize σs debug text = .ok (text.map presetFoldKeepingSpace)) ∧
    (w.chanomarc = some path → IsUtf8 path → Chanoma.loadRc τ w = Chanoma.fromConfigFile τ w path) := by
  have hp := output_items σ
  have hmem : ∀ i ∈ (textParse (outputMainCsv σ)).tail.flatMap rowItems,
      i ∈ presetConsts ∧ i.to ≠ [' '] := by
    intro i hi
    have := hp.mem_iff.mp hi
    rw [List.mem_filter] at this
    exact ⟨mem_presetTable.mp this.1, by simpa using this.2⟩
  refine ⟨?_, fun h hu => ?_⟩
  · obtain ⟨x, h1, h2⟩ := loadCsv_ok (σ := τ) hfile (CsvRows.of_text _) (fromPath_csv hext)
      (fun i hi => preset_cells i (hmem i hi).1)
    refine ⟨⟨[.characterConverter x]⟩, by rw [fromConfigFile_eq, h2]; rfl, fun σs debug text => ?_⟩
    rw [normalize_single, h1, substitute_graph _ presetFoldKeepingSpace]
    · intro i hi
      have : ∀ i ∈ presetConsts, i.to ≠ [' '] →
          i.to.head? = i.from.head?.map presetFoldKeepingSpace := by decide +kernel
      exact this i (hmem i hi).1 (hmem i hi).2
    · intro c hc
      have hne : c ≠ '　' ∧ presetFold c ≠ c := by
        unfold presetFoldKeepingSpace at hc
        split at hc
        · exact absurd rfl hc
        · exact ⟨by assumption, hc⟩
      obtain ⟨i, hi, hic⟩ := preset_covered c hne.2
      refine ⟨i, hp.mem_iff.mpr (List.mem_filter.mpr ⟨mem_presetTable.mpr hi, ?_⟩), hic⟩
      have : ∀ i ∈ presetConsts, i.to = [' '] → i.from.head? = some '　' := by decide +kernel
      simp only [decide_eq_true_eq]
      intro ht
      have := this i hi ht
      rw [hic] at this
      exact hne.1 (Option.some.inj this)
  · have hf : IsFile w path := .inl ⟨_, hfile⟩
    exact (C40_chanomarc_outcome τ w path h hu).2.2.2 _ hf hext (.inl rfl)

/-- The two normalisers differ on U+3000 and only there. -/
theorem C50_difference (c : Char) : presetFoldKeepingSpace c ≠ presetFold c ↔ c = '　' := by
  unfold presetFoldKeepingSpace
  split
  · rename_i h; subst h; exact ⟨fun _ => rfl, fun _ => by decide⟩
  · rename_i h; exact ⟨fun hc => absurd rfl hc, fun hc => absurd hc h⟩

example : HasExt (p! "/home/u/chanomarc.csv") (p! "csv") :=
  ⟨p! "chanomarc", ⟨p! "/home/u/", [], rfl, by decide, .nil, by decide, by decide, by decide,
    by decide⟩, by decide, by decide⟩

end Chanoma
