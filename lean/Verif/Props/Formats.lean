import Verif.Props.Config
import Verif.Props.Csv
/-! # C65: one-character rules mean the same in every format -/

namespace Chanoma

/-- The items for pairs of characters. -/
def pairItems (ps : List (Char × Char)) : List Item := ps.map fun p => ⟨[p.1], [p.2]⟩

theorem itemSubst_pairs (ps : List (Char × Char)) : itemSubst (pairItems ps) = lastPair ps := by
  funext c
  unfold itemSubst lastPair pairItems
  rw [← List.map_reverse, List.find?_map]
  simp only [Function.comp_def, List.head?_cons, Option.some.injEq]
  cases h : List.find? (fun p : Char × Char => decide (p.1 = c)) ps.reverse <;> simp

theorem pairItems_cells (ps : List (Char × Char)) : CellsNonEmpty (pairItems ps) := by
  intro i hi
  obtain ⟨p, -, rfl⟩ := List.mem_map.mp hi
  simp

theorem flatMap_rowItems (ps : List (Char × Char)) :
    ps.flatMap (fun p => rowItems [[p.1], [p.2]]) = pairItems ps := by
  induction ps with
  | nil => rfl
  | cons p ps ih => rw [List.flatMap_cons, ih]; rfl

/-- C65: a CSV file with the rows `a,b`, a YAML file with the entries `b: a` (or `b: [a, …]`) under
`items` in the same order, a YAML file with the entries `a: b` under `character_converter`, and a
table of the program with the items `a` to `b` all give the same normaliser: every character becomes
its last partner. -/
theorem C65_formats_agree (σ : Oracle) (w : World) (ps : List (Char × Char)) (o : Origin)
    -- the CSV file
    (csv : OsStr) (hcsv : HasExt csv (p! "csv")) (b : List UInt8) (hb : w.entry csv = some (.file b))
    (hrows : CsvRows b (ps.map fun p => [[p.1], [p.2]]))
    -- the YAML file with `items`
    (y : OsStr) (hy : HasExt y (p! "yaml") ∨ HasExt y (p! "yml")) (s : List UInt8) (data : YValue)
    (hs : w.entry y = some (.file s)) (hdata : w.parseYaml s = some data)
    (hitems : DocItems data (pairItems ps)) (hno : NoField data (c! "modifiers"))
    -- the YAML file with `character_converter`
    (y' : OsStr) (hy' : HasExt y' (p! "yaml") ∨ HasExt y' (p! "yml")) (s' : List UInt8) (data' : YValue)
    (hs' : w.entry y' = some (.file s')) (hdata' : w.parseYaml s' = some data')
    (hno' : NoField data' (c! "items"))
    (hconv : HasField data' (c! "modifiers") (.mapping [(.string (c! "character_converter"),
      .mapping (ps.map fun p => (.string [p.1], .string [p.2])))])) :
    ∃ c1 c2 c3 c4, Chanoma.fromConfigFile σ w csv = .ok c1 ∧ Chanoma.fromConfigFile σ w y = .ok c2 ∧
      Chanoma.fromConfigFile σ w y' = .ok c3 ∧ Chanoma.fromTable (Table.fromCorr (pairItems ps) o) = .ok c4 ∧
      ∀ c ∈ [c1, c2, c3, c4], ∀ σs debug text,
        c.normalize σs debug text = .ok (substitute (lastPair ps) text) := by
  have e : (ps.map fun p => [[p.1], [p.2]]).flatMap rowItems = pairItems ps := by
    rw [List.flatMap_map]
    exact flatMap_rowItems ps
  obtain ⟨c1, h1, -, h1'⟩ := C35_csv_pipeline σ w csv hcsv b _ hrows hb (by rw [e]; exact pairItems_cells ps)
  obtain ⟨c2, h2, -, h2'⟩ := C35_yaml_pipeline σ w y hy s data hs hdata _ hitems (pairItems_cells ps) []
    (.inl ⟨hno, rfl⟩)
  obtain ⟨c3, h3, -, h3'⟩ := C35_yaml_pipeline σ w y' hy' s' data' hs' hdata' [] (.inl ⟨hno', rfl⟩) (by
    intro i hi; cases hi) [.convert ps] (.inr ⟨_, hconv, by
      have := Describes.convert (ps.map fun p => ((p.1, []), (p.2, [])))
      simp only [List.map_map, Function.comp_def, List.map_id'] at this
      exact .cons this .nil⟩)
  obtain ⟨c4, h4, h4'⟩ := C01_table_substitution (Table.fromCorr (pairItems ps) o) (pairItems_cells ps)
  refine ⟨c1, c2, c3, c4, h1, h2, h3, h4, ?_⟩
  intro c hc σs debug text
  simp only [List.mem_cons, List.not_mem_nil, or_false] at hc
  rcases hc with rfl | rfl | rfl | rfl
  · rw [h1', e, itemSubst_pairs]
  · obtain ⟨mid, hm, hn⟩ := h2' σs debug text
    cases hm
    rw [hn, itemSubst_pairs]
  · obtain ⟨mid, hm, hn⟩ := h3' σs debug text
    cases hm with
    | cons hm hm' =>
      cases hm'
      rw [hn]
      have hm : mid = substitute (lastPair ps) text := hm
      subst hm
      congr 1
      have : itemSubst ([] : List Item) = fun _ => none := rfl
      rw [this]
      simp [substitute]
  · rw [h4']
    exact congrArg (fun f => Outcome.ok (substitute f text)) (itemSubst_pairs ps)

/-- The same rules in the three formats (the YAML texts are not parsed here: the world says what they
mean). -/
def formatsWorld : World := .ofFiles
  [(p! "/a.csv", .text (c! "from,to\na,b\nc,d\n")), (p! "/b.yaml", .text (c! "items")), (p! "/c.yml", .text (c! "conv"))]
  fun s => if s = strBytes (c! "items") then
      some (.mapping [(.string (c! "items"), .mapping [(.string (c! "b"), .string (c! "a")),
        (.string (c! "d"), .sequence [.string (c! "c")])])])
    else some (.mapping [(.string (c! "modifiers"), .mapping [(.string (c! "character_converter"),
      .mapping [(.string (c! "a"), .string (c! "b")), (.string (c! "c"), .string (c! "d"))])])])

example : DocItems (.mapping [(.string (c! "items"), .mapping [(.string (c! "b"), .string (c! "a")),
      (.string (c! "d"), .sequence [.string (c! "c")])])]) (pairItems [('a', 'b'), ('c', 'd')]) :=
  .inr ⟨_, ⟨[], [], rfl, by simp⟩, .cons (.one (c! "b") (c! "a")) (.cons (.many (c! "d") [c! "c"]) .nil)⟩
example : ∀ path ∈ [p! "/a.csv", p! "/b.yaml", p! "/c.yml"],
    (Chanoma.fromConfigFile .insertion formatsWorld path >>= fun c =>
      c.normalize (fun _ => .reversed) false (c! "abcde")) = .ok (c! "bbdde") := by decide +kernel

/-- The theorem applies to these files. -/
example : ∃ c1 c2 c3 c4, Chanoma.fromConfigFile .insertion formatsWorld (p! "/a.csv") = .ok c1 ∧
    Chanoma.fromConfigFile .insertion formatsWorld (p! "/b.yaml") = .ok c2 ∧
    Chanoma.fromConfigFile .insertion formatsWorld (p! "/c.yml") = .ok c3 ∧
    Chanoma.fromTable (Table.fromCorr (pairItems [('a', 'b'), ('c', 'd')]) .new) = .ok c4 ∧
    ∀ c ∈ [c1, c2, c3, c4], ∀ σs debug text,
      c.normalize σs debug text = .ok (substitute (lastPair [('a', 'b'), ('c', 'd')]) text) :=
  C65_formats_agree .insertion formatsWorld [('a', 'b'), ('c', 'd')] .new
    (p! "/a.csv") ⟨p! "a", ⟨p! "/", [], rfl, by decide, .nil, by decide, by decide, by decide,
      by decide⟩, by decide, by decide⟩ (strBytes (c! "from,to\na,b\nc,d\n")) (by decide +kernel)
    (CsvRows.of_text (c! "from,to\na,b\nc,d\n"))
    (p! "/b.yaml") (.inl ⟨p! "b", ⟨p! "/", [], rfl, by decide, .nil, by decide, by decide, by decide,
      by decide⟩, by decide, by decide⟩) (strBytes (c! "items")) _ (by decide +kernel) rfl
    (.inr ⟨_, ⟨[], [], rfl, by simp⟩, .cons (.one (c! "b") (c! "a")) (.cons (.many (c! "d") [c! "c"]) .nil)⟩)
    (by intro l hl e he; cases hl; simp at he; subst he; simp)
    (p! "/c.yml") (.inr ⟨p! "c", ⟨p! "/", [], rfl, by decide, .nil, by decide, by decide, by decide,
      by decide⟩, by decide, by decide⟩) (strBytes (c! "conv")) _ (by decide +kernel) rfl
    (by intro l hl e he; cases hl; simp at he; subst he; simp)
    ⟨[], [], rfl, by simp⟩

end Chanoma
