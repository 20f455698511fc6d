import Verif.Proofs.File
import Verif.Proofs.Config
import Verif.Spec.Files
/-! # C28, C29, C30, C44: CSV and YAML import and export -/

namespace Chanoma

/-! ## C28 -/

/-- C28: loading a readable file whose records after the first are `rows` yields the items of these
records, in order. -/
theorem C28_rows_become_items (w : World) (path : OsStr) (b : List UInt8) (rows : List (List Str))
    (hrows : CsvRows b rows) (hfile : w.entry path = some (.file b)) :
    ∃ t, tableFromCsvPath w path = .ok t ∧ t.items = rows.flatMap rowItems ∧
      t.origin = .configurationFile path :=
  ⟨_, tableFromCsv_rows hfile hrows, rfl, rfl⟩

/-- C28: the rows of a file containing text: those of the text, whether or not it starts with a byte
order mark. -/
theorem C28_rows_of_text (records : List (List Str)) (s : Str) (htext : CsvText records s) :
    (s.head? ≠ some '﻿' → CsvRows (strBytes s) records.tail) ∧
    CsvRows (strBytes ('﻿' :: s)) records.tail := by
  refine ⟨fun h => ?_, ?_⟩
  · have := CsvRows.of_text s
    rwa [textParse_text htext h] at this
  · have := CsvRows.of_text ('﻿' :: s)
    rwa [textParse_bom htext] at this

/-- C28: every text and every file, well-formed CSV or not, has exactly one list of records. -/
theorem C28_records_exist_unique :
    (∀ s : Str, ∃ records, CsvText records s ∧ ∀ r, CsvText r s → r = records) ∧
    ∀ b : List UInt8, ∃ records, CsvFile b records ∧ ∀ r, CsvFile b r → r = records :=
  ⟨fun s => ⟨_, textGo_csvText s, fun _ h => (csv_text h).symm⟩,
   fun b => ⟨_, csvFile_parse b, fun _ h => csvFile_unique h⟩⟩

/-- C28: loading succeeds exactly if the path names a readable file whose records after the first
are valid UTF-8; in all other cases it fails with `CsvFileLoadError`.  It never panics. -/
theorem C28_loading_is_total (w : World) (path : OsStr) :
    ((∃ b rows, w.entry path = some (.file b) ∧ CsvRows b rows) ↔
      ∃ t, tableFromCsvPath w path = .ok t) ∧
    ((¬ ∃ b rows, w.entry path = some (.file b) ∧ CsvRows b rows) ↔
      tableFromCsvPath w path = .err .csvFileLoad) ∧
    tableFromCsvPath w path ≠ .panic := by
  by_cases h : ∃ b rows, w.entry path = some (.file b) ∧ CsvRows b rows
  · obtain ⟨b, rows, h1, h2⟩ := h
    rw [tableFromCsv_rows h1 h2]
    have h : ∃ b rows, w.entry path = some (.file b) ∧ CsvRows b rows := ⟨b, rows, h1, h2⟩
    simp only [h, not_true]
    simp
  · have : tableFromCsvPath w path = .err .csvFileLoad := by
      by_cases hf : ∃ b, w.entry path = some (.file b)
      · obtain ⟨b, hb⟩ := hf
        rcases tableFromCsv_cases w path b hb with ⟨rows, h1, -⟩ | ⟨-, h2⟩
        · exact absurd ⟨b, rows, hb, h1⟩ h
        · exact h2
      · unfold tableFromCsvPath
        split
        · rename_i s hs; exact absurd ⟨s, hs⟩ hf
        · rfl
    rw [this]
    simp only [h, not_false_iff]
    simp

/-- C28: one cell that is not valid UTF-8, outside of the first record, is enough to fail. -/
theorem C28_not_utf8 (w : World) (path : OsStr) (b : List UInt8) (records : List (List (List UInt8)))
    (hrecords : CsvFile b records) (hfile : w.entry path = some (.file b))
    (r : List (List UInt8)) (hr : r ∈ records.tail) (f : List UInt8) (hf : f ∈ r)
    (hbad : ¬ ∃ s : Str, strBytes s = f) :
    tableFromCsvPath w path = .err .csvFileLoad := by
  apply (C28_loading_is_total w path).2.1.mp
  rintro ⟨b', rows, h1, records', h2, h3⟩
  rw [hfile] at h1
  cases h1
  rw [csvFile_unique h2, ← csvFile_unique hrecords] at h3
  rw [← h3] at hr
  obtain ⟨row, -, rfl⟩ := List.mem_map.mp hr
  obtain ⟨s, -, rfl⟩ := List.mem_map.mp hf
  exact hbad ⟨s, rfl⟩

/-- C28: a loaded item comes from two cells of one record after the first; its `to` is the last
cell. -/
theorem C28_item_origin (records : List (List Str)) (i : Item) :
    i ∈ records.tail.flatMap rowItems ↔
      ∃ r ∈ records.tail, ∃ before after, r = before ++ i.from :: (after ++ [i.to]) := by
  simp only [List.mem_flatMap]
  constructor
  · rintro ⟨r, hr, hi⟩
    refine ⟨r, hr, ?_⟩
    unfold rowItems at hi
    split at hi
    · rename_i to hto
      simp only [List.mem_map] at hi
      obtain ⟨f, hf, rfl⟩ := hi
      obtain ⟨l, rfl⟩ := List.getLast?_eq_some_iff.mp hto
      rw [List.dropLast_concat] at hf
      obtain ⟨a, b, rfl⟩ := List.append_of_mem hf
      exact ⟨a, b, by simp⟩
    · simp at hi
  · rintro ⟨r, hr, a, b, rfl⟩
    refine ⟨_, hr, ?_⟩
    have : a ++ i.from :: (b ++ [i.to]) = (a ++ i.from :: b) ++ [i.to] := by simp
    unfold rowItems
    rw [this, List.getLast?_concat, List.dropLast_concat]
    simp

/-- A header, a quoted cell containing a comma, an empty line and a Windows line end. -/
example : ∃ t, tableFromCsvPath
      (.ofFiles [(p! "/t.csv", .text (c! "from,to\n\"a,b\",x,X\r\n\ny,Y"))]) (p! "/t.csv") = .ok t ∧
    t.items = [⟨c! "a,b", c! "X"⟩, ⟨c! "x", c! "X"⟩, ⟨c! "y", c! "Y"⟩] := by
  have htext : CsvText [[c! "from", c! "to"], [c! "a,b", c! "x", c! "X"], [c! "y", c! "Y"]]
      (c! "from,to\n\"a,b\",x,X\r\n\ny,Y") := by
    have e1 : RecordText [c! "from", c! "to"] (c! "from" ++ ',' :: c! "to") :=
      .cons (.bare (by decide) (by decide)) (.one (.bare (by decide) (by decide)))
    have e2 : RecordText [c! "a,b", c! "x", c! "X"] (c! "\"a,b\"" ++ ',' :: (c! "x" ++ ',' :: c! "X")) :=
      .cons (.quoted (c! "a,b") (g := []) (by decide) (by decide)) (.cons (.bare (by decide) (by decide))
        (.one (.bare (by decide) (by decide))))
    have e3 : RecordText [c! "y", c! "Y"] (c! "y" ++ ',' :: c! "Y") :=
      .cons (.bare (by decide) (by decide)) (.one (.bare (by decide) (by decide)))
    exact .record e1 (by decide) (e := c! "\n") (by decide)
      (.record e2 (by decide) (e := c! "\r\n") (by decide)
        (.empty (e := c! "\n") (by decide) (.last (.closed e3) (by decide))))
  obtain ⟨t, h1, h2, _⟩ := C28_rows_become_items
    (.ofFiles [(p! "/t.csv", .text (c! "from,to\n\"a,b\",x,X\r\n\ny,Y"))]) (p! "/t.csv") _ _
    ((C28_rows_of_text _ _ htext).1 (by decide)) rfl
  exact ⟨t, h1, by rw [h2]; decide +kernel⟩

/-- Bytes that are not UTF-8 (here `FF`): harmless in the first record, an error in another one. -/
example :
    tableFromCsvPath (.ofFiles [(p! "/t.csv", .file ([0xFF] ++ strBytes (c! ",b\na,A\n")))]) (p! "/t.csv") =
      .ok (Table.fromCorr [⟨c! "a", c! "A"⟩] (.configurationFile (p! "/t.csv"))) ∧
    tableFromCsvPath (.ofFiles [(p! "/t.csv", .file (strBytes (c! "a,b\na,") ++ [0xFF]))]) (p! "/t.csv") =
      .err .csvFileLoad ∧
    (¬ ∃ s : Str, strBytes s = [0xFF]) := by
  refine ⟨by decide +kernel, by decide +kernel, ?_⟩
  rintro ⟨s, h⟩
  have := (strFromUtf8_eq_some_iff _ _).mpr h
  revert this
  have e : strFromUtf8 [0xFF] = none := by decide +kernel
  rw [e]; simp

/-! ## C29 -/

/-- C29 (full claim: the loaded items are those exported.  Missing: the reader takes the first
group for a header).  For items with arbitrary strings, what comes back after an export is
exactly the items whose `to` is not the least one, with multiplicities. -/
theorem C29_export_import_partial (w : World) (path : OsStr) (items : List Item)
    (hfile : w.entry path = some (.text (toCsvWriter items)))
    (least : Str) (h1 : ∃ i ∈ items, i.to = least) (h2 : ∀ i ∈ items, LexLe least i.to) :
    ∃ t, tableFromCsvPath w path = .ok t ∧ t.items.Perm (items.filter fun i => i.to ≠ least) := by
  refine ⟨_, tableFromCsv_eq w path _ hfile, ?_⟩
  have := export_import items [] .nil
  rw [List.append_nil] at this
  show ((textParse (toCsvWriter items)).tail.flatMap rowItems).Perm _
  rw [this]
  exact groups_tail_perm items h1 h2

/-- C29 refuted for every non-empty correspondence: at least one item is lost. -/
theorem C29_export_import_loses (w : World) (path : OsStr) (items : List Item) (hne : items ≠ [])
    (hfile : w.entry path = some (.text (toCsvWriter items))) :
    ∃ t, tableFromCsvPath w path = .ok t ∧ ∃ i ∈ items, i ∉ t.items := by
  have hleast : ∃ least, (∃ i ∈ items, i.to = least) ∧ ∀ i ∈ items, LexLe least i.to := by
    clear hfile
    induction items with
    | nil => exact absurd rfl hne
    | cons a l ih =>
      by_cases hl : l = []
      · subst hl
        exact ⟨a.to, ⟨a, by simp, rfl⟩, fun i hi => by simp at hi; subst hi; exact LexLe.refl _⟩
      · obtain ⟨m, ⟨j, hj, hjm⟩, hm⟩ := ih hl
        rcases LexLe.total a.to m with h | h
        · refine ⟨a.to, ⟨a, by simp, rfl⟩, fun i hi => ?_⟩
          rcases List.mem_cons.mp hi with rfl | hi
          · exact LexLe.refl _
          · exact h.trans (hm i hi)
        · refine ⟨m, ⟨j, by simp [hj], hjm⟩, fun i hi => ?_⟩
          rcases List.mem_cons.mp hi with rfl | hi
          · exact h
          · exact hm i hi
  obtain ⟨least, h1, h2⟩ := hleast
  obtain ⟨t, ht, hp⟩ := C29_export_import_partial w path items hfile least h1 h2
  obtain ⟨i, hi, hil⟩ := h1
  refine ⟨t, ht, i, hi, fun h => ?_⟩
  have := hp.mem_iff.mp h
  simp [hil] at this

/-- C29 with a header: if some header record with two or more cells is written first, exactly
the exported items come back. -/
theorem C29_export_import_with_header (w : World) (path : OsStr) (items : List Item)
    (header : List Str) (hh : 2 ≤ header.length)
    (hfile : w.entry path = some (.text (csvWriteRecord header ++ toCsvWriter items))) :
    ∃ t, tableFromCsvPath w path = .ok t ∧ t.items.Perm items := by
  refine ⟨_, tableFromCsv_eq w path _ hfile, ?_⟩
  have h := textParse_export_tail (rs := header :: exportRecords items)
    (fun r hr => by
      rcases List.mem_cons.mp hr with rfl | hr
      · exact hh
      · exact exportRecords_len items r hr) [] .nil
  rw [List.append_nil, List.flatMap_cons, ← toCsvWriter_eq, List.tail_cons] at h
  show ((textParse _).tail.flatMap rowItems).Perm items
  rw [h]
  have e : (exportRecords items).flatMap rowItems = (itemMap items).flatMap groupItems := by
    unfold exportRecords
    rw [List.flatMap_map]
    apply flatMap_congr'
    intro e _
    simp [rowItems, groupItems]
  rw [e]
  exact groups_perm items

/-- The exported text of a correspondence with quotes, commas and line breaks, and what comes
back: the group `A` is lost. -/
example : toCsvWriter [⟨c! "b\"", c! "B"⟩, ⟨c! "a", c! "A"⟩, ⟨c! "b\n,", c! "B"⟩] =
      c! "a,A\n\"b\"\"\",\"b\n,\",B\n" ∧
    (∃ t, tableFromCsvPath (.ofFiles [(p! "/t.csv", .text (c! "a,A\n\"b\"\"\",\"b\n,\",B\n"))])
      (p! "/t.csv") = .ok t ∧ t.items = [⟨c! "b\"", c! "B"⟩, ⟨c! "b\n,", c! "B"⟩]) ∧
    (∃ i ∈ [(⟨c! "b\"", c! "B"⟩ : Item), ⟨c! "a", c! "A"⟩], i.to = c! "A") ∧
    (∀ i ∈ [(⟨c! "b\"", c! "B"⟩ : Item), ⟨c! "a", c! "A"⟩], LexLe (c! "A") i.to) := by
  refine ⟨by decide +kernel, ⟨_, tableFromCsv_eq _ _ _ rfl, by decide +kernel⟩, by decide, ?_⟩
  intro i hi
  simp only [List.mem_cons, List.not_mem_nil, or_false] at hi
  rcases hi with rfl | rfl
  · exact .lt _ _ (by decide)
  · exact LexLe.refl _

/-! ## C30 -/

/-- C30: if reading the file gives back the document `to_serialized_corr` produces (printing and
parsing are those of `serde_yaml`), loading it gives exactly the exported items, with
multiplicities. -/
theorem C30_yaml_round_trip (w : World) (path : OsStr) (s : List UInt8) (items : List Item)
    (hfile : w.entry path = some (.file s)) (hyaml : w.parseYaml s = some (toSerializedCorr items)) :
    ∃ t, tableFromYamlPath w path = .ok t ∧ t.items.Perm items ∧
      t.origin = .configurationFile path := by
  refine ⟨Table.fromCorr ((itemMap items).flatMap groupItems) (.configurationFile path), ?_,
    groups_perm items, rfl⟩
  unfold tableFromYamlPath readYaml
  simp only [hfile, hyaml, Outcome.ok_bind, yamlItems_serialized]
  rfl

/-- C30: the document itself: one mapping `items` from each distinct `to`, in increasing order, to
the list of its `from`s in the order of the correspondence. -/
theorem C30_document (items : List Item) :
    ∃ groups : List (Str × List Str),
      toSerializedCorr items = .mapping [(.string (c! "items"),
        .mapping (groups.map fun g => (.string g.1, .sequence (g.2.map .string))))] ∧
      groups.Pairwise (fun a b => LexLe a.1 b.1 ∧ a.1 ≠ b.1) ∧
      (∀ i ∈ items, ∃ g ∈ groups, g.1 = i.to) ∧
      ∀ g ∈ groups, g.2 ≠ [] ∧ g.2 = (items.filter fun i => i.to = g.1).map (·.from) := by
  refine ⟨itemMap items, rfl, itemMap_sorted items, fun i hi => ?_, fun g hg => mem_itemMap.mp hg⟩
  have := (itemMap_key_iff items i.to).mpr ⟨i, hi, rfl⟩
  simpa [and_comm, eq_comm] using List.mem_map.mp this

example : ∃ t, tableFromYamlPath (.ofFiles [(p! "/t.yaml", .text (c! "..."))]
      (fun _ => some (toSerializedCorr [⟨c! "b", c! "B"⟩, ⟨c! "a", c! "A"⟩, ⟨c! "", c! "B"⟩])))
      (p! "/t.yaml") = .ok t ∧
    t.items = [⟨c! "a", c! "A"⟩, ⟨c! "b", c! "B"⟩, ⟨c! "", c! "B"⟩] := by
  refine ⟨_, rfl, by decide +kernel⟩

/-! ## C44 -/

/-- C44: `add_from_csv` returns `Ok` and adds exactly the items of the file (those of C28), or
returns `Err` and leaves the builder as it was; it never panics. -/
theorem C44_add_from_csv (σ : Oracle) (w : World) (b : TableBuilder) (path : OsStr) :
    (∃ t, tableFromCsvPath w path = .ok t ∧ (b.addFromCsv σ w path).2 = .ok () ∧
      (b.addFromCsv σ w path).1.build.origin = b.build.origin ∧
      ∀ x, x ∈ (b.addFromCsv σ w path).1.build.items ↔ x ∈ b.build.items ∨ x ∈ t.items) ∨
    ((¬ ∃ b rows, w.entry path = some (.file b) ∧ CsvRows b rows) ∧
      (b.addFromCsv σ w path).2 = .err .csvFileLoad ∧ (b.addFromCsv σ w path).1 = b) := by
  by_cases h : ∃ b rows, w.entry path = some (.file b) ∧ CsvRows b rows
  · left
    obtain ⟨t, ht⟩ := (C28_loading_is_total w path).1.mp h
    unfold TableBuilder.addFromCsv
    rw [ht]
    exact ⟨t, rfl, rfl, rfl, fun x => mem_corrAdd⟩
  · right
    have := (C28_loading_is_total w path).2.1.mp h
    unfold TableBuilder.addFromCsv
    rw [this]
    exact ⟨h, rfl, rfl⟩

/-- C44: the same for `add_from_yaml`; besides, a document of the wrong shape panics (C33), which
also leaves the builder as it was. -/
theorem C44_add_from_yaml (σ : Oracle) (w : World) (b : TableBuilder) (path : OsStr) :
    (∃ t, tableFromYamlPath w path = .ok t ∧ (b.addFromYaml σ w path).2 = .ok () ∧
      (b.addFromYaml σ w path).1.build.origin = b.build.origin ∧
      ∀ x, x ∈ (b.addFromYaml σ w path).1.build.items ↔ x ∈ b.build.items ∨ x ∈ t.items) ∨
    (∃ e, tableFromYamlPath w path = .err e ∧ (b.addFromYaml σ w path).2 = .err e ∧
      (b.addFromYaml σ w path).1 = b) ∨
    (tableFromYamlPath w path = .panic ∧ (b.addFromYaml σ w path).2 = .panic ∧
      (b.addFromYaml σ w path).1 = b) := by
  unfold TableBuilder.addFromYaml
  cases h : tableFromYamlPath w path with
  | ok t => exact .inl ⟨t, rfl, rfl, rfl, fun x => mem_corrAdd⟩
  | err e => exact .inr (.inl ⟨e, rfl, rfl, rfl⟩)
  | panic => exact .inr (.inr ⟨rfl, rfl, rfl⟩)

/-- A successful and a failing import into a builder with one item. -/
example :
    let w := World.ofFiles [(p! "/t.csv", .text (c! "from,to\nb,B\n"))]
    let b := TableBuilder.fromTable (Table.fromCorr [⟨c! "a", c! "A"⟩] .new)
    (b.addFromCsv .insertion w (p! "/t.csv")).1.build.items = [⟨c! "a", c! "A"⟩, ⟨c! "b", c! "B"⟩] ∧
    (b.addFromCsv .insertion w (p! "/no.csv")) = (b, .err .csvFileLoad) := by
  decide +kernel

end Chanoma
