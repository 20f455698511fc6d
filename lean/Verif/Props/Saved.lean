import Verif.Props.Reversible
import Verif.Props.Pipeline
import Verif.Props.Config
import Verif.Props.Csv
import Verif.Props.Neologdn
/-! # C78: what can be written as a table -/

namespace Chanoma

/-- There is a list of all characters without repetition. -/
theorem exists_all_chars : ∃ cs : List Char, cs.Nodup ∧ ∀ c, c ∈ cs := by
  obtain ⟨cs, h1, h2⟩ := exists_nodup ((List.range 0x110000).map Char.ofNat)
  refine ⟨cs, h1, fun c => (h2 c).2 ?_⟩
  refine List.mem_map.2 ⟨c.toNat, List.mem_range.2 ?_, Char.ofNat_toNat c⟩
  rcases c.valid with h | h
  · exact Nat.lt_trans h (by decide)
  · exact h.2

/-- One item for every character of `cs` that `g` changes. -/
def changedItems (cs : List Char) (g : Char → Char) : List Item :=
  (cs.filter fun c => g c ≠ c).map fun c => ⟨[c], [g c]⟩

theorem changedItems_cells (cs : List Char) (g : Char → Char) : CellsNonEmpty (changedItems cs g) := by
  intro i hi
  obtain ⟨c, -, rfl⟩ := List.mem_map.1 hi
  simp

theorem substitute_changed {cs : List Char} (hcs : ∀ c, c ∈ cs) (g : Char → Char) {items : List Item}
    (h : ∀ i, i ∈ items ↔ i ∈ changedItems cs g) (text : Str) :
    substitute (itemSubst items) text = text.map g := by
  refine substitute_graph _ g (fun i hi => ?_) (fun c hc => ?_) text
  · obtain ⟨c, -, rfl⟩ := List.mem_map.1 ((h i).1 hi)
    rfl
  · exact ⟨⟨[c], [g c]⟩, (h _).2 (List.mem_map.2 ⟨c, List.mem_filter.2 ⟨hcs c, by simpa using hc⟩, rfl⟩), rfl⟩

/-- C78: what a table can do to all texts is exactly what works character by character: it leaves the
empty text, makes of a joined text the two results joined, and of one character one character. -/
theorem C78_tables_iff (F : Str → Str) (o : Origin) :
    (∃ items c, Chanoma.fromTable (Table.fromCorr items o) = .ok c ∧
      ∀ σs debug text, c.normalize σs debug text = .ok (F text)) ↔
    (F [] = [] ∧ (∀ a b, F (a ++ b) = F a ++ F b) ∧ ∀ ch, (F [ch]).length = 1) := by
  constructor
  · rintro ⟨items, c, hc, h⟩
    have e : ∀ text, F text = substitute (itemSubst items) text := by
      intro text
      have := h (fun _ => .insertion) false text
      rw [fromTable_normalize _ c hc, Outcome.ok.injEq] at this
      exact this.symm
    refine ⟨by simp [e, substitute], fun a b => by simp [e, substitute], fun ch => by simp [e, substitute]⟩
  · rintro ⟨h1, h2, h3⟩
    let g : Char → Char := fun ch => (F [ch]).headD ch
    have hg : ∀ ch, F [ch] = [g ch] := by
      intro ch
      have := h3 ch
      match hF : F [ch], this with
      | [d], _ => simp [g, hF]
    have hF : ∀ text, F text = text.map g := by
      intro text
      induction text with
      | nil => exact h1
      | cons c t ih => rw [show c :: t = [c] ++ t from rfl, h2, hg, ih]; rfl
    obtain ⟨cs, -, hcs⟩ := exists_all_chars
    obtain ⟨c, hc, hn⟩ := C01_table_substitution (Table.fromCorr (changedItems cs g) o) (changedItems_cells cs g)
    refine ⟨changedItems cs g, c, hc, fun σs debug text => ?_⟩
    rw [hn, hF]
    exact congrArg Outcome.ok (substitute_changed hcs g (fun _ => Iff.rfl) text)

/-- The character a call without neologdn puts in the place of another. -/
def Call.onChar : Call → Char → Char
  | .addTable t, c => (itemSubst t.items c).getD c
  | _, c => presetFold c

theorem calls_map {calls : List Call} (hn : ∀ σ, Call.useNeologdn σ ∉ calls) (text : Str) :
    calls.foldl Call.meaning text = text.map fun c => calls.foldl (fun c call => call.onChar c) c := by
  induction calls generalizing text with
  | nil => simp
  | cons call calls ih =>
    rw [List.foldl_cons, ih fun σ h => hn σ (by simp [h])]
    cases call with
    | usePreset σ => simp [Call.meaning, Call.onChar]
    | useNeologdn σ => exact absurd (by simp) (hn σ)
    | addTable t => simp [Call.meaning, Call.onChar, substitute]

/-- C78: a normaliser made of presets and tables, however many, can be written to a CSV file, with
one item for every character that is changed, and loading that file gives a normaliser that does
the same. -/
theorem C78_saved (calls : List Call) (hn : ∀ σ, Call.useNeologdn σ ∉ calls) (c : Chanoma)
    (hc : calls.foldlM Call.run Chanoma.new = .ok c) :
    ∃ items : List Item, (items.map Item.from).Nodup ∧
      (∀ i ∈ items, ∃ a b, a ≠ b ∧ i = ⟨[a], [b]⟩) ∧
      ∀ (σ : Oracle) (w : World) (path : OsStr), HasExt path (p! "csv") →
        w.entry path = some (.text (csvWriteRecord [c! "from", c! "to"] ++ toCsvWriter items)) →
        ∃ m, Chanoma.fromConfigFile σ w path = .ok m ∧
          ∀ σs τs debug text, m.normalize σs debug text = c.normalize τs false text := by
  obtain ⟨cs, hnd, hcs⟩ := exists_all_chars
  refine ⟨changedItems cs fun c => calls.foldl (fun c call => call.onChar c) c, ?_, ?_, ?_⟩
  · rw [changedItems, List.map_map]
    refine List.Pairwise.map _ (fun a b hab => ?_) (hnd.sublist List.filter_sublist)
    simpa using hab
  · intro i hi
    obtain ⟨a, ha, rfl⟩ := List.mem_map.1 hi
    exact ⟨a, _, fun e => by simpa [← e] using (List.mem_filter.1 ha).2, rfl⟩
  · intro σ w path hext hfile
    obtain ⟨t, h1, h2⟩ := C29_export_import_with_header w path _ _ (by simp) hfile
    obtain ⟨b, rows, hb, hrows⟩ := ((C28_loading_is_total w path).1).2 ⟨t, h1⟩
    obtain ⟨t', h3, h4, -⟩ := C28_rows_become_items w path b rows hrows hb
    rw [h1] at h3; cases h3
    have hcell : CellsNonEmpty (rows.flatMap rowItems) := by
      rw [← h4]
      exact fun i hi => changedItems_cells _ _ i (h2.mem_iff.1 hi)
    obtain ⟨x, hx, h⟩ := loadCsv_ok (σ := σ) hb hrows (fromPath_csv hext) hcell
    refine ⟨⟨_⟩, by rw [fromConfigFile_eq, h]; rfl, fun σs τs debug text => ?_⟩
    rw [normalize_single, hx, ← h4, (C22_from_new calls c hc τs text).1, calls_map hn,
      substitute_changed hcs _ (fun i => h2.mem_iff) text]

/-- C78: no table does what neologdn does. -/
theorem C78_not_neologdn (σ : Oracle) (n : Chanoma) (hn : Chanoma.neologdn σ = .ok n) (items : List Item)
    (o : Origin) (c : Chanoma) (hc : Chanoma.fromTable (Table.fromCorr items o) = .ok c) :
    ∃ text, ∀ σs τs debug debug', c.normalize σs debug text ≠ n.normalize τs debug' text := by
  obtain ⟨n', h1, h2⟩ := C16_neologdn σ
  rw [h1] at hn; cases hn
  refine ⟨[' '], fun σs τs debug debug' h => ?_⟩
  rw [h2, fromTable_normalize _ c hc, Outcome.ok.injEq] at h
  have := congrArg List.length h
  have e : neologdnSpec [' '] = [] := by decide +kernel
  simp [substitute, e] at this

/-- A sequence of calls and a file as in `C78_saved`. -/
example (σ : Oracle) : ∃ c, [Call.usePreset σ, .addTable (Table.fromCorr [⟨c! "A", c! "a"⟩] .new),
    .addTable (Table.fromCorr [⟨c! "a", c! "@"⟩] .new)].foldlM Call.run Chanoma.new = .ok c :=
  (C22_call_order _ _).1.2 (by
    intro call h
    simp only [List.mem_cons, List.not_mem_nil, or_false] at h
    rcases h with rfl | rfl | rfl
    · trivial
    · show CellsNonEmpty _; decide
    · show CellsNonEmpty _; decide)
example : HasExt (p! "/t.csv") (p! "csv") ∧
    ∀ items, (World.ofFiles [(p! "/t.csv", .text (csvWriteRecord [c! "from", c! "to"] ++ toCsvWriter items))]).entry
      (p! "/t.csv") = some (.text (csvWriteRecord [c! "from", c! "to"] ++ toCsvWriter items)) :=
  ⟨⟨p! "t", ⟨p! "/", [], rfl, by decide, .nil, by decide, by decide, by decide, by decide⟩, by decide, by decide⟩,
    fun _ => rfl⟩
/-- A function that a table can do: swap `a` and `b`; one that none can: delete them. -/
example : (fun t : Str => t.map fun c => if c = 'a' then 'b' else if c = 'b' then 'a' else c) [] = [] ∧
    ¬ ∀ ch, ((fun t : Str => t.filter (· ≠ 'a')) [ch]).length = 1 :=
  ⟨rfl, fun h => by simpa using h 'a'⟩

end Chanoma
