import Verif.Props.Config
import Verif.Props.Sets
import Verif.Spec.Export
/-! # C54: the exported texts and the `output` binary -/

namespace Chanoma

theorem itemMap_groups (items : List Item) : Groups items (itemMap items) := by
  refine ⟨itemMap_sorted items, fun i hi => ?_, fun g hg => mem_itemMap.mp hg⟩
  have := (itemMap_key_iff items i.to).mpr ⟨i, hi, rfl⟩
  simpa [and_comm, eq_comm] using List.mem_map.mp this

theorem csvWriteField_eq (f : Str) : csvWriteField f = cellText f := by
  unfold csvWriteField cellText doubleQuotes csvNeedsQuotes
  simp only [List.any_eq_true, Bool.or_eq_true, beq_iff_eq, or_assoc]

theorem cellsText_eq (r : List Str) :
    ((r.map csvWriteField).intersperse [',']).flatten = cellsText r := by
  induction r with
  | nil => rfl
  | cons f r ih =>
    cases r with
    | nil => simp [cellsText, csvWriteField_eq]
    | cons g r =>
      simp only [List.map_cons] at ih ⊢
      rw [List.intersperse_cons_cons, List.flatten_cons, List.flatten_cons, ih, csvWriteField_eq]
      rfl

theorem Groups.mem_iff {items : List Item} {groups : List (Str × List Str)} (h : Groups items groups)
    (e : Str × List Str) : e ∈ groups ↔
      (∃ i ∈ items, i.to = e.1) ∧ e.2 = (items.filter fun i => i.to = e.1).map (·.from) := by
  obtain ⟨-, h2, h3⟩ := h
  constructor
  · intro he
    obtain ⟨h4, h5⟩ := h3 e he
    refine ⟨?_, h5⟩
    rw [h5, ne_eq, List.map_eq_nil_iff, List.filter_eq_nil_iff] at h4
    apply Classical.byContradiction
    intro hc
    exact h4 fun i hi ht => hc ⟨i, hi, by simpa using ht⟩
  · rintro ⟨⟨i, hi, ht⟩, h4⟩
    obtain ⟨g, hg, hgi⟩ := h2 i hi
    have : g = e := by
      rw [ht] at hgi
      exact Prod.ext hgi (by rw [(h3 g hg).2, h4, hgi])
    exact this ▸ hg

/-- C54: every correspondence has exactly one list of groups. -/
theorem C54_groups (items : List Item) :
    ∃ groups, Groups items groups ∧ ∀ groups', Groups items groups' → groups' = groups := by
  refine ⟨itemMap items, itemMap_groups items, fun gs h => ?_⟩
  have h' := itemMap_groups items
  apply List.Perm.eq_of_pairwise (le := fun a b => LexLe a.1 b.1 ∧ a.1 ≠ b.1)
    (fun a b _ _ h1 h2 => absurd (LexLe.antisymm h1.1 h2.1) h1.2) h.1 h'.1
  rw [List.perm_ext_iff_of_nodup]
  · intro e; rw [h.mem_iff, h'.mem_iff]
  · exact h.1.imp fun hne he => hne.2 (by rw [he])
  · exact h'.1.imp fun hne he => hne.2 (by rw [he])

theorem Groups.eq {items : List Item} {groups : List (Str × List Str)} (h : Groups items groups) :
    groups = itemMap items := by
  obtain ⟨g, -, hu⟩ := C54_groups items
  rw [hu _ h, hu _ (itemMap_groups items)]

/-- C54: the CSV export, character by character: one line for each target, in increasing order, with
its sources and then the target, quoted only where necessary. -/
theorem C54_csv_text (items : List Item) (groups : List (Str × List Str)) (h : Groups items groups) :
    toCsvWriter items = groupsCsv groups := by
  rw [h.eq, toCsvWriter_eq]
  unfold exportRecords groupsCsv
  rw [List.flatMap_map]
  apply flatMap_congr'
  intro g hg
  have hlen : 2 ≤ (g.2 ++ [g.1]).length := by
    have := List.length_pos_iff.mpr (mem_itemMap.mp hg).1
    simp; omega
  unfold csvWriteRecord
  simp only
  rw [if_neg (by simpa using csvWriteBody_ne hlen), cellsText_eq]

/-- C54: the YAML export. -/
theorem C54_yaml_document (items : List Item) (groups : List (Str × List Str))
    (h : Groups items groups) : toSerializedCorr items = groupsYaml groups := by
  rw [h.eq]; rfl

/-- C54: what the `output` binary prints, for every format and independently of the hash order: the
items of the preset, as YAML for the format `yaml` and as CSV with an additional line end for all
others. -/
theorem C54_output (σ : Oracle) (format : Str) :
    ∃ items groups, items.Pairwise ItemLt ∧
      (∀ x, x ∈ items ↔ ∃ c, presetFold c ≠ c ∧ x = ⟨[c], [presetFold c]⟩) ∧
      Groups items groups ∧
      (format = c! "yaml" → outputMain σ format = .yaml (groupsYaml groups)) ∧
      (format ≠ c! "yaml" → outputMain σ format = .text (groupsCsv groups ++ ['\n'])) := by
  refine ⟨(TableBuilder.new.preset σ).build.items, _, corrAdd_ssorted _ _ _, fun x => ?_,
    itemMap_groups _, fun h => ?_, fun h => ?_⟩
  · rw [mem_presetTable]
    constructor
    · intro hx
      have : ∀ i ∈ presetConsts, ∃ c ∈ i.from.head?, presetFold c ≠ c ∧ i = ⟨[c], [presetFold c]⟩ := by
        decide +kernel
      obtain ⟨c, -, h⟩ := this x hx
      exact ⟨c, h⟩
    · rintro ⟨c, hc, rfl⟩
      have : ∀ n ∈ presetCodes, (⟨[Char.ofNat n], [presetFold (Char.ofNat n)]⟩ : Item) ∈ presetConsts := by
        decide +kernel
      exact moved_cases (P := fun c => (⟨[c], [presetFold c]⟩ : Item) ∈ presetConsts) this (presetFold_ne hc)
  · rw [outputMain, if_pos h]; rfl
  · rw [outputMain, if_neg h, outputMainCsv]
    rw [← C54_csv_text _ _ (itemMap_groups _)]; rfl

/-- C54: if the printed YAML document is saved as a file (and parsed back as it was printed), loading
this file gives a normaliser that behaves like the preset. -/
theorem C54_yaml_reimported (σ τ : Oracle) (w : World) (path : OsStr)
    (hext : HasExt path (p! "yaml") ∨ HasExt path (p! "yml")) (s : List UInt8) (doc : YValue)
    (hout : outputMain σ (c! "yaml") = .yaml doc)
    (hfile : w.entry path = some (.file s)) (hyaml : w.parseYaml s = some doc) :
    ∃ c, Chanoma.fromConfigFile τ w path = .ok c ∧
      ∀ σs debug text, c.normalize σs debug text = .ok (text.map presetFold) := by
  have hd : doc = toSerializedCorr (TableBuilder.new.preset σ).build.items := by
    rw [outputMain, if_pos rfl] at hout
    cases hout; rfl
  obtain ⟨t, h1, h2, h3⟩ := C30_yaml_round_trip w path s _ hfile (by rw [hyaml, hd])
  have ht : t = Table.fromCorr t.items (.configurationFile path) := by rw [← h3]; rfl
  have hi : DocItems doc t.items := ((C34_mapping_format w path s doc hfile hyaml).1 t.items).mpr (by
    rw [h1, ← ht])
  have hmem : ∀ i ∈ t.items, i ∈ presetConsts := fun i hi => mem_presetTable.mp (h2.mem_iff.mp hi)
  obtain ⟨c, h4, -, h5⟩ := C35_yaml_pipeline τ w path hext s doc hfile hyaml t.items hi
    (fun i hi => preset_cells i (hmem i hi)) [] (.inl ⟨by
      rw [hd]
      intro l hl e he
      cases hl
      simp only [List.mem_singleton] at he
      subst he
      simp, rfl⟩)
  refine ⟨c, h4, fun σs debug text => ?_⟩
  obtain ⟨mid, hm, h6⟩ := h5 σs debug text
  cases hm
  rw [h6, substitute_graph _ presetFold (fun i hi => preset_graph i (hmem i hi))]
  intro c hc
  obtain ⟨i, hi, h⟩ := preset_covered c hc
  exact ⟨i, h2.mem_iff.mpr (mem_presetTable.mpr hi), h⟩

/-- A file system that meets the hypotheses of `C54_yaml_reimported`. -/
example : ∃ (w : World) (s : List UInt8) (doc : YValue), outputMain .reversed (c! "yaml") = .yaml doc ∧
    w.entry (p! "/t.yml") = some (.file s) ∧ w.parseYaml s = some doc :=
  ⟨.ofFiles [(p! "/t.yml", .file (p! "items: …"))] (fun _ => some (outputMainYaml .reversed)), _, _,
    by rw [outputMain, if_pos rfl], rfl, rfl⟩

end Chanoma
