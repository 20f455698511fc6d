import Verif.Model.ExampleTable
import Verif.Spec.ExampleTable
import Verif.Props.Config
import Verif.Props.Cjk
/-! # C69: the example table of the repository -/

namespace Chanoma

/-- The items of the example table. -/
def exampleItems : List Item := (textParse exampleCsv).tail.flatMap rowItems

/-- Every item follows `g` or is overridden by a later one. -/
def Follows (g : Char → Char) : List Item → Prop
  | [] => True
  | i :: l => (i.to.head? = i.from.head?.map g ∨ ∃ j ∈ l, j.from.head? = i.from.head?) ∧ Follows g l

instance Follows.decide (g : Char → Char) : (l : List Item) → Decidable (Follows g l)
  | [] => inferInstanceAs (Decidable True)
  | i :: l =>
    have := Follows.decide g l
    inferInstanceAs (Decidable ((i.to.head? = i.from.head?.map g ∨
      ∃ j ∈ l, j.from.head? = i.from.head?) ∧ Follows g l))

theorem itemSubst_follows {g : Char → Char} {l : List Item} (h : Follows g l) {c : Char}
    (hc : ∃ i ∈ l, i.from.head? = some c) : itemSubst l c = some (g c) := by
  induction l with
  | nil => obtain ⟨i, hi, -⟩ := hc; cases hi
  | cons i l ih =>
    by_cases hl : ∃ j ∈ l, j.from.head? = some c
    · have := ih h.2 hl
      unfold itemSubst at this ⊢
      rw [List.reverse_cons, List.find?_append]
      cases hf : l.reverse.find? (fun i => decide (i.from.head? = some c)) with
      | none => rw [hf] at this; cases this
      | some j => rw [hf] at this; simpa using this
    · have hi : i.from.head? = some c := by
        obtain ⟨j, hj, e⟩ := hc
        rcases List.mem_cons.mp hj with rfl | hj
        · exact e
        · exact absurd ⟨j, hj, e⟩ hl
      have hf : l.reverse.find? (fun i => decide (i.from.head? = some c)) = none := by
        rw [List.find?_eq_none]
        intro j hj e
        exact hl ⟨j, List.mem_reverse.mp hj, by simpa using e⟩
      unfold itemSubst
      rw [List.reverse_cons, List.find?_append, hf]
      rcases h.1 with h1 | ⟨j, hj, e⟩
      · simp [hi, h1]
      · exact absurd ⟨j, hj, e.trans hi⟩ hl

/-- The code points listed in the example table, as pairs of a start and a length. -/
def exampleRuns : List (Nat × Nat) :=
  [(0x7E, 1), (0x2D7, 1), (0x58A, 1), (0x2010, 6), (0x2019, 1), (0x201D, 1), (0x2043, 1), (0x207B, 1),
   (0x208B, 1), (0x2212, 1), (0x223C, 1), (0x223E, 1), (0x2500, 2), (0x301C, 1), (0x3030, 1), (0x3300, 164),
   (0x33A3, 1), (0x33A5, 91), (0xFE63, 1), (0xFF01, 1), (0xFF03, 4), (0xFF08, 87), (0xFF61, 61)]

theorem exampleItems_facts : (∀ i ∈ exampleItems, i.from ≠ [] ∧ i.to ≠ []) ∧
    Follows exampleFold exampleItems ∧
    exampleItems.map (·.from.head?) =
      (exampleRuns.flatMap fun r => List.range' r.1 r.2).map (some ∘ Char.ofNat) := by
  decide +kernel

/-- In one of the runs. -/
def Listed (n : Nat) : Prop := ∃ r ∈ exampleRuns, r.1 ≤ n ∧ n < r.1 + r.2

instance (n : Nat) : Decidable (Listed n) :=
  inferInstanceAs (Decidable (∃ r ∈ exampleRuns, r.1 ≤ n ∧ n < r.1 + r.2))

theorem listed_item {c : Char} (h : Listed c.toNat) : ∃ i ∈ exampleItems, i.from.head? = some c := by
  obtain ⟨r, hr, h1, h2⟩ := h
  have : some c ∈ exampleItems.map (·.from.head?) := by
    rw [exampleItems_facts.2.2]
    refine List.mem_map.mpr ⟨c.toNat, List.mem_flatMap.mpr ⟨r, hr, ?_⟩, by simp⟩
    rw [List.mem_range'_1]; exact ⟨h1, h2⟩
  exact List.mem_map.mp this

theorem exampleFold_ne {c : Char} (h : exampleFold c ≠ c) : Listed c.toNat := by
  unfold exampleFold at h
  split at h
  · rename_i h1
    exact (by decide +kernel : ∀ x ∈ ['∼', '∾', '〜', '〰', '～'], Listed x.toNat) c h1
  · split at h
    · rename_i h1; exact (by decide +kernel : ∀ x ∈ hyphenVariants, Listed x.toNat) c h1
    · split at h
      · rename_i h1
        rcases h1 with h1 | rfl
        · exact (by decide +kernel : ∀ x ∈ choonpuVariants, Listed x.toNat) c h1
        · decide +kernel
      · split at h
        · exact absurd rfl h
        · rename_i hy
          split at h
          · rename_i h1
            refine square_cases (P := fun c => squareHead c ≠ c → Listed c.toNat) ?_ h1 h
            decide +kernel
          · have h1 := presetFold_ne h
            refine (by decide +kernel : ∀ n ∈ presetCodes, n ≠ 0xFFE5 → n ≠ 0x3000 → Listed n) _ h1 ?_ ?_
            · intro e; exact hy (.inl (by rw [← char_ofNat_toNat c, e]))
            · intro e; exact hy (.inr (by rw [← char_ofNat_toNat c, e]))

theorem example_substitute (text : Str) :
    substitute (itemSubst exampleItems) text = text.map exampleFold := by
  unfold substitute
  refine List.map_congr_left fun c _ => ?_
  by_cases h : ∃ i ∈ exampleItems, i.from.head? = some c
  · rw [itemSubst_follows exampleItems_facts.2.1 h]; rfl
  · have h1 : exampleFold c = c := Classical.byContradiction fun h1 => h (listed_item (exampleFold_ne h1))
    have h2 : itemSubst exampleItems c = none := by
      unfold itemSubst
      rw [List.find?_eq_none.mpr]
      intro i hi e
      exact h ⟨i, List.mem_reverse.mp hi, by simpa using e⟩
    rw [h1, h2]; rfl

/-- C69: the file `examples/file/table.csv`, wherever it is stored, loads as a configuration file; the
normaliser folds every character as stated in `exampleFold`. -/
theorem C69_example_table (σ : Oracle) (w : World) (path : OsStr) (hext : HasExt path (p! "csv"))
    (hfile : w.entry path = some (.file (strBytes exampleCsv))) :
    ∃ c, Chanoma.fromConfigFile σ w path = .ok c ∧ c.modifiers.length = 1 ∧
      ∀ σs debug text, c.normalize σs debug text = .ok (text.map exampleFold) := by
  obtain ⟨c, h1, h2, h3⟩ := C35_csv_pipeline σ w path hext _ _ (CsvRows.of_text exampleCsv) hfile
    exampleItems_facts.1
  exact ⟨c, h1, h2, fun σs debug text => (h3 σs debug text).trans (congrArg _ (example_substitute text))⟩

/-- The characters on which the example table differs from the predefined sets. -/
def exampleDiffers : List Char :=
  ['∼', '∾', '〰', '～', '－', '￥', '　'] ++ (hyphenVariants ++ choonpuVariants)

theorem exampleFold_preset_iff (c : Char) :
    exampleFold c = (if IsSquare c then squareHead c else presetFold c) ↔ c ∉ exampleDiffers := by
  by_cases h : c ∈ exampleDiffers
  · have : ∀ c ∈ exampleDiffers, exampleFold c ≠ (if IsSquare c then squareHead c else presetFold c) := by
      decide +kernel
    exact ⟨fun e => absurd e (this c h), fun h' => absurd h h'⟩
  · refine ⟨fun _ => h, fun _ => ?_⟩
    simp only [exampleDiffers, List.mem_append, List.mem_cons, List.not_mem_nil, or_false, not_or] at h
    obtain ⟨⟨h1, h2, h3, h4, h5, h6, h7⟩, h8, h9⟩ := h
    by_cases ht : c = '〜'
    · subst ht; decide +kernel
    · simp [exampleFold, h1, h2, h3, h4, h5, h6, h7, h8, h9, ht]

/-- C69: the example table does the same as the preset with the CJK squares exactly on the texts without
other tildes and hyphens, dashes, `－`, `￥` and ideographic spaces. -/
theorem C69_versus_preset (σ τ : Oracle) (w : World) (path : OsStr) (hext : HasExt path (p! "csv"))
    (hfile : w.entry path = some (.file (strBytes exampleCsv))) (c d : Chanoma)
    (hc : Chanoma.fromConfigFile σ w path = .ok c)
    (hd : Chanoma.fromTable ((TableBuilder.new.preset τ).addCorr τ (cjkItems τ)).build = .ok d)
    (σs τs : Nat → Oracle) (debug debug' : Bool) (text : Str) :
    c.normalize σs debug text = d.normalize τs debug' text ↔ ∀ ch ∈ text, ch ∉ exampleDiffers := by
  obtain ⟨c', h1, -, h2⟩ := C69_example_table σ w path hext hfile
  obtain ⟨d', h3, h4⟩ := C48_preset_with_cjk τ τ
  rw [h1] at hc; cases hc
  rw [h3] at hd; cases hd
  rw [h2, h4, Outcome.ok.injEq, List.map_inj_left]
  exact forall₂_congr fun ch _ => exampleFold_preset_iff ch

theorem exampleFold_idem (c : Char) : exampleFold (exampleFold c) = exampleFold c := by
  by_cases h : exampleFold c = c
  · rw [h, h]
  · obtain ⟨r, hr, h1, h2⟩ := exampleFold_ne h
    have hall : ∀ r ∈ exampleRuns, ∀ n ∈ List.range' r.1 r.2,
        exampleFold (exampleFold (Char.ofNat n)) = exampleFold (Char.ofNat n) := by decide +kernel
    have := hall r hr c.toNat (by rw [List.mem_range'_1]; exact ⟨h1, h2⟩)
    rwa [char_ofNat_toNat] at this

/-- C69: normalising twice with the example table is the same as once. -/
theorem C69_idempotent (σ : Oracle) (w : World) (path : OsStr) (hext : HasExt path (p! "csv"))
    (hfile : w.entry path = some (.file (strBytes exampleCsv))) (c : Chanoma)
    (hc : Chanoma.fromConfigFile σ w path = .ok c) (σs τs : Nat → Oracle) (debug debug' : Bool)
    (text out : Str) (ho : c.normalize σs debug text = .ok out) : c.normalize τs debug' out = .ok out := by
  obtain ⟨c', h1, -, h2⟩ := C69_example_table σ w path hext hfile
  rw [h1] at hc; cases hc
  rw [h2] at ho; cases ho
  rw [h2, List.map_map]
  exact congrArg _ (List.map_congr_left fun ch _ => exampleFold_idem ch)

/-- `/repo/examples/file/table.yaml:1-864`, the data of the document: the same pairs in the same order (compared
by a script), as a list of `from` and `to`. -/
def exampleYaml : YValue :=
  .mapping [(.string (c! "items"), .sequence (exampleItems.map fun i =>
    .mapping [(.string (c! "from"), .string i.from), (.string (c! "to"), .string i.to)]))]

/-- C69: the same pairs as in `examples/file/table.yaml` do not load. -/
theorem C69_example_yaml (σ : Oracle) (w : World) (path : OsStr)
    (hext : HasExt path (p! "yaml") ∨ HasExt path (p! "yml")) (s : List UInt8)
    (hfile : w.entry path = some (.file s)) (hyaml : w.parseYaml s = some exampleYaml) :
    Chanoma.fromConfigFile σ w path = .panic :=
  (C34_list_format_panics σ w path hext s _ (.sequence _) hfile hyaml
    ⟨[], [], rfl, by simp⟩ (fun _ h => by cases h)).1

/-- The hypotheses are met. -/
example : ∃ c, Chanoma.fromConfigFile .insertion (.ofFiles [(p! "/t.csv", .text exampleCsv)]) (p! "/t.csv") = .ok c ∧
    c.normalize (fun _ => .insertion) false (c! "㌀～‐－￥Ａ㎣ｱ") = .ok (c! "ア~-ー￥Amア") := by
  obtain ⟨c, h1, -, h2⟩ := C69_example_table .insertion (.ofFiles [(p! "/t.csv", .text exampleCsv)]) (p! "/t.csv")
    ⟨p! "t", ⟨p! "/", [], rfl, by decide, .nil, by decide, by decide, by decide, by decide⟩, by decide,
      by decide⟩ rfl
  exact ⟨c, h1, (h2 _ _ _).trans (by decide +kernel)⟩

end Chanoma
