import Verif.Props.Config
/-! # C44, C55: builders made from files -/

namespace Chanoma

/-- C55: `TableBuilder::from_csv_path`: an I/O error if the path cannot be resolved; otherwise the
items of the file in the order of the file, with the resolved path as origin, or a
`CsvFileLoadError`. -/
theorem C55_from_csv_path (w : World) (path : OsStr) :
    (w.canonicalize path = none → TableBuilder.fromCsvPath w path = .err .io) ∧
    ∀ real, w.canonicalize path = some real →
      (∀ b rows, w.entry real = some (.file b) → CsvRows b rows →
        ∃ t, TableBuilder.fromCsvPath w path = .ok t ∧ t.build.items = rows.flatMap rowItems ∧
          t.build.origin = .configurationFile real) ∧
      ((¬ ∃ b rows, w.entry real = some (.file b) ∧ CsvRows b rows) →
        TableBuilder.fromCsvPath w path = .err .csvFileLoad) := by
  unfold TableBuilder.fromCsvPath
  refine ⟨fun h => by rw [h], fun real h => ?_⟩
  rw [h]
  refine ⟨fun b rows hf hr => ?_, fun hn => ?_⟩
  · obtain ⟨t, h1, h2, h3⟩ := C28_rows_become_items w real b rows hr hf
    exact ⟨⟨t⟩, by simp [h1], h2, h3⟩
  · simp [(C28_loading_is_total w real).2.1.mp hn]

/-- The outcome of reading the items of a YAML file, from the parsed document. -/
theorem tableFromYaml_cases (w : World) (path : OsStr) :
    (∀ s data, w.entry path = some (.file s) → w.parseYaml s = some data →
      (∀ items, DocItems data items →
        tableFromYamlPath w path = .ok (Table.fromCorr items (.configurationFile path))) ∧
      ((¬ ∃ items, DocItems data items) → tableFromYamlPath w path = .panic)) ∧
    ((∃ s, w.entry path = some (.file s) ∧ w.parseYaml s = none) ∨ w.entry path = some .dir →
      tableFromYamlPath w path = .err .yamlFileLoad) ∧
    (w.entry path = none ∨ w.entry path = some .denied → tableFromYamlPath w path = .err .io) := by
  refine ⟨fun s data hf hp => ?_, fun h => ?_, fun h => ?_⟩
  · have := C34_mapping_format w path s data hf hp
    exact ⟨fun items hi => (this.1 items).mp hi, this.2.mp⟩
  · unfold tableFromYamlPath readYaml
    rcases h with ⟨s, h, hp⟩ | h
    · simp [h, hp]
    · simp [h]
  · unfold tableFromYamlPath readYaml
    rcases h with h | h <;> simp [h]

/-- C55: `TableBuilder::from_yaml_path`: the same for YAML files. -/
theorem C55_from_yaml_path (w : World) (path : OsStr) :
    (w.canonicalize path = none → TableBuilder.fromYamlPath w path = .err .io) ∧
    ∀ real, w.canonicalize path = some real →
      (∀ s data, w.entry real = some (.file s) → w.parseYaml s = some data →
        (∀ items, DocItems data items → ∃ t, TableBuilder.fromYamlPath w path = .ok t ∧
          t.build.items = items ∧ t.build.origin = .configurationFile real) ∧
        ((¬ ∃ items, DocItems data items) → TableBuilder.fromYamlPath w path = .panic)) ∧
      ((∃ s, w.entry real = some (.file s) ∧ w.parseYaml s = none) ∨ w.entry real = some .dir →
        TableBuilder.fromYamlPath w path = .err .yamlFileLoad) ∧
      (w.entry real = none ∨ w.entry real = some .denied →
        TableBuilder.fromYamlPath w path = .err .io) := by
  unfold TableBuilder.fromYamlPath
  refine ⟨fun h => by rw [h], fun real h => ?_⟩
  rw [h]
  obtain ⟨h1, h2, h3⟩ := tableFromYaml_cases w real
  refine ⟨fun s data hf hp => ⟨fun items hi => ?_, fun hn => ?_⟩, fun he => ?_, fun he => ?_⟩
  · refine ⟨⟨Table.fromCorr items (.configurationFile real)⟩, ?_, rfl, rfl⟩
    simp [(h1 s data hf hp).1 items hi]
  · simp [(h1 s data hf hp).2 hn]
  · simp [h2 he]
  · simp [h3 he]

/-- C44: what `add_from_yaml` adds, from the parsed document: the items of the mapping `items`; a
failure leaves the builder as it was. -/
theorem C44_yaml_items (σ : Oracle) (w : World) (b : TableBuilder) (path : OsStr) (s : List UInt8)
    (data : YValue) (hfile : w.entry path = some (.file s)) (hyaml : w.parseYaml s = some data) :
    (∀ items, DocItems data items → (b.addFromYaml σ w path).2 = .ok () ∧
      (b.addFromYaml σ w path).1.build.origin = b.build.origin ∧
      ∀ x, x ∈ (b.addFromYaml σ w path).1.build.items ↔ x ∈ b.build.items ∨ x ∈ items) ∧
    ((¬ ∃ items, DocItems data items) → b.addFromYaml σ w path = (b, .panic)) := by
  obtain ⟨h1, h2⟩ := (tableFromYaml_cases w path).1 s data hfile hyaml
  unfold TableBuilder.addFromYaml
  refine ⟨fun items hi => ?_, fun hn => by rw [h2 hn]⟩
  rw [h1 items hi]
  exact ⟨rfl, rfl, fun x => mem_corrAdd⟩

/-- C55: making a builder from a CSV file and adding the file to a new builder give the same set of
items, but the latter lists it in increasing order without repetitions and does not record the
origin. -/
theorem C55_from_versus_add (σ : Oracle) (w : World) (path real : OsStr)
    (hreal : w.canonicalize path = some real) (hsame : w.entry real = w.entry path)
    (t : TableBuilder) (ht : TableBuilder.fromCsvPath w path = .ok t) :
    (TableBuilder.new.addFromCsv σ w path).2 = .ok () ∧
    (∀ x, x ∈ (TableBuilder.new.addFromCsv σ w path).1.build.items ↔ x ∈ t.build.items) ∧
    (TableBuilder.new.addFromCsv σ w path).1.build.items.Pairwise ItemLt ∧
    t.build.origin = .configurationFile real ∧
    (TableBuilder.new.addFromCsv σ w path).1.build.origin = .new := by
  obtain ⟨-, h⟩ := C55_from_csv_path w path
  obtain ⟨h1, h2⟩ := h real hreal
  by_cases hx : ∃ b rows, w.entry real = some (.file b) ∧ CsvRows b rows
  · obtain ⟨b, rows, hb, hr⟩ := hx
    obtain ⟨t', h3, h4, h5⟩ := h1 b rows hb hr
    rw [h3] at ht; cases ht
    obtain ⟨u, h6, h7, -⟩ := C28_rows_become_items w path b rows hr (by rw [← hsame, hb])
    unfold TableBuilder.addFromCsv
    rw [h6]
    refine ⟨rfl, fun x => ?_, corrAdd_ssorted _ _ _, h5, rfl⟩
    show x ∈ corrAdd σ [] u.corr ↔ _
    rw [mem_corrAdd, h4, ← h7]
    simp [Table.items]
  · rw [h2 hx] at ht; cases ht

/-- C55: the same for YAML files: same set of items, but in increasing order, without repetitions and
without origin. -/
theorem C55_from_versus_add_yaml (σ : Oracle) (w : World) (path real : OsStr)
    (hreal : w.canonicalize path = some real) (hsame : w.entry real = w.entry path)
    (t : TableBuilder) (ht : TableBuilder.fromYamlPath w path = .ok t) :
    (TableBuilder.new.addFromYaml σ w path).2 = .ok () ∧
    (∀ x, x ∈ (TableBuilder.new.addFromYaml σ w path).1.build.items ↔ x ∈ t.build.items) ∧
    (TableBuilder.new.addFromYaml σ w path).1.build.items.Pairwise ItemLt ∧
    t.build.origin = .configurationFile real ∧
    (TableBuilder.new.addFromYaml σ w path).1.build.origin = .new := by
  obtain ⟨-, h⟩ := C55_from_yaml_path w path
  obtain ⟨h1, h2, h3⟩ := h real hreal
  by_cases hx : ∃ s data items, w.entry real = some (.file s) ∧ w.parseYaml s = some data ∧ DocItems data items
  · obtain ⟨s, data, items, hs, hd, hi⟩ := hx
    obtain ⟨t', h4, h5, h6⟩ := (h1 s data hs hd).1 items hi
    rw [h4] at ht; cases ht
    have h7 := ((tableFromYaml_cases w path).1 s data (by rw [← hsame, hs]) hd).1 items hi
    unfold TableBuilder.addFromYaml
    rw [h7]
    refine ⟨rfl, fun x => ?_, corrAdd_ssorted _ _ _, h6, rfl⟩
    show x ∈ corrAdd σ [] items ↔ _
    rw [mem_corrAdd, h5]
    simp
  · exfalso
    rcases he : w.entry real with _ | e
    · rw [h3 (.inl he)] at ht; cases ht
    · cases e with
      | dir => rw [h2 (.inr he)] at ht; cases ht
      | denied => rw [h3 (.inr he)] at ht; cases ht
      | file s =>
        rcases hp : w.parseYaml s with _ | data
        · rw [h2 (.inl ⟨s, he, hp⟩)] at ht; cases ht
        · rw [(h1 s data he hp).2 (fun ⟨items, hi⟩ => hx ⟨s, data, items, he, hp, hi⟩)] at ht
          cases ht

theorem itemSubst_eq_of {items items' : List Item} (hmem : ∀ x, x ∈ items ↔ x ∈ items')
    (hfun : ∀ i ∈ items, ∀ j ∈ items, i.from.head? = j.from.head? → i.to.head? = j.to.head?) (c : Char) :
    itemSubst items c = itemSubst items' c := by
  by_cases h : ∃ i ∈ items, i.from.head? = some c
  · obtain ⟨i, hi, hc⟩ := h
    obtain ⟨j, hj, hjc, e⟩ := itemSubst_some hi hc
    obtain ⟨k, hk, hkc, e'⟩ := itemSubst_some ((hmem i).mp hi) hc
    rw [e, e']
    exact hfun j hj k ((hmem k).mpr hk) (by rw [hjc, hkc])
  · rw [itemSubst_none (fun i hi hc => h ⟨i, hi, hc⟩),
      itemSubst_none (fun i hi hc => h ⟨i, (hmem i).mpr hi, hc⟩)]

/-- C55: if no two items of the file that start with the same character have targets that start with
different characters, normalisers made from the two builders agree on every text. -/
theorem C55_same_normaliser (σ : Oracle) (w : World) (path real : OsStr)
    (hreal : w.canonicalize path = some real) (hsame : w.entry real = w.entry path)
    (t : TableBuilder) (ht : TableBuilder.fromCsvPath w path = .ok t) (hne : CellsNonEmpty t.build.items)
    (hfun : ∀ i ∈ t.build.items, ∀ j ∈ t.build.items,
      i.from.head? = j.from.head? → i.to.head? = j.to.head?) :
    ∃ c c', Chanoma.fromTable t.build = .ok c ∧
      Chanoma.fromTable (TableBuilder.new.addFromCsv σ w path).1.build = .ok c' ∧
      ∀ σs τs debug debug' text, c.normalize σs debug text = c'.normalize τs debug' text := by
  obtain ⟨-, h1, -⟩ := C55_from_versus_add σ w path real hreal hsame t ht
  obtain ⟨c, h2, h3⟩ := C01_table_substitution t.build hne
  obtain ⟨c', h4, h5⟩ := C01_table_substitution (TableBuilder.new.addFromCsv σ w path).1.build
    (fun i hi => hne i ((h1 i).mp hi))
  refine ⟨c, c', h2, h4, fun σs τs debug debug' text => ?_⟩
  rw [h3, h5, show itemSubst t.build.items = itemSubst _ from
    funext (itemSubst_eq_of (fun x => (h1 x).symm) hfun)]

/-- C55: and so for YAML files. -/
theorem C55_same_normaliser_yaml (σ : Oracle) (w : World) (path real : OsStr)
    (hreal : w.canonicalize path = some real) (hsame : w.entry real = w.entry path)
    (t : TableBuilder) (ht : TableBuilder.fromYamlPath w path = .ok t) (hne : CellsNonEmpty t.build.items)
    (hfun : ∀ i ∈ t.build.items, ∀ j ∈ t.build.items,
      i.from.head? = j.from.head? → i.to.head? = j.to.head?) :
    ∃ c c', Chanoma.fromTable t.build = .ok c ∧
      Chanoma.fromTable (TableBuilder.new.addFromYaml σ w path).1.build = .ok c' ∧
      ∀ σs τs debug debug' text, c.normalize σs debug text = c'.normalize τs debug' text := by
  obtain ⟨-, h1, -⟩ := C55_from_versus_add_yaml σ w path real hreal hsame t ht
  obtain ⟨c, h2, h3⟩ := C01_table_substitution t.build hne
  obtain ⟨c', h4, h5⟩ := C01_table_substitution (TableBuilder.new.addFromYaml σ w path).1.build
    (fun i hi => hne i ((h1 i).mp hi))
  refine ⟨c, c', h2, h4, fun σs τs debug debug' text => ?_⟩
  rw [h3, h5, show itemSubst t.build.items = itemSubst _ from
    funext (itemSubst_eq_of (fun x => (h1 x).symm) hfun)]

/-- C55: with conflicting rows they differ: `from_csv_path` lets the last row win, `add_from_csv` the
greatest target. -/
theorem C55_conflict_differs (σ : Oracle) :
    ∃ (w : World) (t : TableBuilder) (c c' : Chanoma), w.canonicalize (p! "/t.csv") = some (p! "/t.csv") ∧
      w.entry (p! "/t.csv") = some (.text (c! "from,to\na,y\na,x\n")) ∧
      TableBuilder.fromCsvPath w (p! "/t.csv") = .ok t ∧ Chanoma.fromTable t.build = .ok c ∧
      Chanoma.fromTable (TableBuilder.new.addFromCsv σ w (p! "/t.csv")).1.build = .ok c' ∧
      ∀ σs debug, c.normalize σs debug (c! "a") = .ok (c! "x") ∧
        c'.normalize σs debug (c! "a") = .ok (c! "y") := by
  let w : World := .ofFiles [(p! "/t.csv", .text (c! "from,to\na,y\na,x\n"))]
  have hcan : w.canonicalize (p! "/t.csv") = some (p! "/t.csv") := rfl
  have ht : TableBuilder.fromCsvPath w (p! "/t.csv") = .ok ⟨Table.fromCorr [⟨c! "a", c! "y"⟩, ⟨c! "a", c! "x"⟩]
      (.configurationFile (p! "/t.csv"))⟩ := by rfl
  obtain ⟨-, h1, h2, -⟩ := C55_from_versus_add σ w _ _ hcan rfl _ ht
  have hitems : (TableBuilder.new.addFromCsv σ w (p! "/t.csv")).1.build.items =
      [⟨c! "a", c! "x"⟩, ⟨c! "a", c! "y"⟩] := by
    apply ssorted_ext h2
    · simp only [SSorted, List.pairwise_cons, List.mem_cons, List.not_mem_nil, or_false, forall_eq,
        false_imp_iff, implies_true, List.Pairwise.nil, and_true]
      exact ⟨.inr ⟨rfl, .lt _ _ (by decide)⟩, by decide⟩
    · intro x
      rw [h1]
      show x ∈ [_, _] ↔ _
      simp [or_comm]
  obtain ⟨c, h3, h4⟩ := C01_table_substitution
    (⟨Table.fromCorr [⟨c! "a", c! "y"⟩, ⟨c! "a", c! "x"⟩] (.configurationFile (p! "/t.csv"))⟩ :
      TableBuilder).build (by decide +kernel)
  obtain ⟨c', h5, h6⟩ := C01_table_substitution (TableBuilder.new.addFromCsv σ w (p! "/t.csv")).1.build
    (by rw [hitems]; decide +kernel)
  refine ⟨w, _, c, c', hcan, rfl, ht, h3, h5, fun σs debug => ⟨?_, ?_⟩⟩
  · rw [h4]; decide +kernel
  · rw [h6, hitems]; decide +kernel

/-- A file that meets the hypotheses of `C55_same_normaliser`. -/
example : ∃ (w : World) (t : TableBuilder), w.canonicalize (p! "/t.csv") = some (p! "/t.csv") ∧
    TableBuilder.fromCsvPath w (p! "/t.csv") = .ok t ∧ CellsNonEmpty t.build.items ∧
    t.build.items.length = 4 ∧ ∀ i ∈ t.build.items, ∀ j ∈ t.build.items,
      i.from.head? = j.from.head? → i.to.head? = j.to.head? :=
  ⟨.ofFiles [(p! "/t.csv", .text (c! "from,to\nb,c,B\na,A\na,A\n"))],
    ⟨Table.fromCorr [⟨c! "b", c! "B"⟩, ⟨c! "c", c! "B"⟩, ⟨c! "a", c! "A"⟩, ⟨c! "a", c! "A"⟩]
      (.configurationFile (p! "/t.csv"))⟩, rfl, rfl, by decide +kernel, rfl, by decide +kernel⟩

/-- A YAML file that meets the hypotheses of `C55_same_normaliser_yaml`. -/
example : ∃ (w : World) (t : TableBuilder), w.canonicalize (p! "/t.yml") = some (p! "/t.yml") ∧
    TableBuilder.fromYamlPath w (p! "/t.yml") = .ok t ∧ CellsNonEmpty t.build.items ∧
    t.build.items.length = 3 ∧ ∀ i ∈ t.build.items, ∀ j ∈ t.build.items,
      i.from.head? = j.from.head? → i.to.head? = j.to.head? :=
  ⟨.ofFiles [(p! "/t.yml", .text (c! "items:\n  B: [b, c]\n  A: [a]\n"))] (fun _ => some (.mapping
      [(.string (c! "items"), .mapping [(.string (c! "B"), .sequence [.string (c! "b"), .string (c! "c")]),
        (.string (c! "A"), .sequence [.string (c! "a")])])])),
    ⟨Table.fromCorr [⟨c! "b", c! "B"⟩, ⟨c! "c", c! "B"⟩, ⟨c! "a", c! "A"⟩]
      (.configurationFile (p! "/t.yml"))⟩, rfl, rfl, by decide +kernel, rfl, by decide +kernel⟩

end Chanoma
