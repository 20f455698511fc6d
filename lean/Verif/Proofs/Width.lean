import Verif.Proofs.Converter
import Verif.Proofs.Preset
import Verif.Spec.Width
/-! # The preset and neologdn tables as functions on characters -/

namespace Chanoma

theorem itemSubst_some {items : List Item} {c : Char} {i : Item} (hi : i ∈ items)
    (hc : i.from.head? = some c) : ∃ j ∈ items, j.from.head? = some c ∧ itemSubst items c = j.to.head? := by
  unfold itemSubst
  split
  · rename_i j hj
    have h1 := List.mem_of_find?_eq_some hj
    have h2 := List.find?_some hj
    exact ⟨j, by simpa using h1, by simpa using h2, rfl⟩
  · rename_i h
    rw [List.find?_eq_none] at h
    exact absurd (by simpa using hc) (h i (by simpa using hi))

theorem itemSubst_none {items : List Item} {c : Char}
    (h : ∀ i ∈ items, i.from.head? ≠ some c) : itemSubst items c = none := by
  unfold itemSubst
  rw [List.find?_eq_none.mpr]
  intro i hi
  simpa using h i (by simpa using hi)

/-- A table whose items all follow the function `g`, with an item for every character moved by
`g`, substitutes by `g`. -/
theorem substitute_graph (items : List Item) (g : Char → Char)
    (h1 : ∀ i ∈ items, i.to.head? = i.from.head?.map g)
    (h2 : ∀ c, g c ≠ c → ∃ i ∈ items, i.from.head? = some c) (text : Str) :
    substitute (itemSubst items) text = text.map g := by
  unfold substitute
  apply List.map_congr_left
  intro c _
  by_cases h : ∃ i ∈ items, i.from.head? = some c
  · obtain ⟨i, hi, hc⟩ := h
    obtain ⟨j, hj, hjc, he⟩ := itemSubst_some hi hc
    rw [he, h1 j hj, hjc]; rfl
  · have := itemSubst_none (items := items) (c := c) fun i hi hc => h ⟨i, hi, hc⟩
    rw [this]
    by_cases hg : g c = c
    · exact hg.symm
    · exact absurd (h2 c hg) h

/-- All constants of the preset. -/
def presetConsts : List Item :=
  digitsConsts ++ (punctuationsConsts ++ (alphabetsConsts ++ kanasConsts))

theorem presetItem_iff {x : Item} : PresetItem x ↔ x ∈ presetConsts := by
  simp [PresetItem, presetConsts]

theorem preset_graph : ∀ i ∈ presetConsts, i.to.head? = i.from.head?.map presetFold := by
  decide +kernel

theorem preset_cells : ∀ i ∈ presetConsts, i.from ≠ [] ∧ i.to ≠ [] := by decide +kernel

/-- The code points moved by the preset. -/
def presetCodes : List Nat :=
  (List.range' 0xFF01 0x5D).filter (fun n => n ≠ 0xFF02 ∧ n ≠ 0xFF07) ++
  ((List.range' 0xFF61 61).filter (fun n => n ≠ 0xFF70) ++ [0x201D, 0x2019, 0xFFE5, 0x301C, 0x3000])

theorem char_ofNat_toNat (c : Char) : Char.ofNat c.toNat = c := Char.ofNat_toNat c

theorem presetFold_ne {c : Char} (h : presetFold c ≠ c) : c.toNat ∈ presetCodes := by
  unfold presetFold at h
  simp only at h
  simp only [presetCodes, List.mem_append, List.mem_filter, List.mem_range'_1]
  split at h
  · rename_i h1; left; simp; omega
  · split at h
    · rename_i h1; right; left; simp; omega
    · right; right
      repeat' split at h
      all_goals first | (subst c; decide) | exact absurd rfl h

theorem presetCodes_covered : ∀ n ∈ presetCodes,
    ∃ i ∈ presetConsts, i.from.head? = some (Char.ofNat n) := by decide +kernel

theorem preset_covered (c : Char) (h : presetFold c ≠ c) :
    ∃ i ∈ presetConsts, i.from.head? = some c := by
  have := presetCodes_covered _ (presetFold_ne h)
  rwa [char_ofNat_toNat] at this

/-- The builder with only the preset lists the preset items. -/
theorem mem_presetTable {σ : Oracle} {x : Item} :
    x ∈ (TableBuilder.new.preset σ).build.items ↔ x ∈ presetConsts := by
  have := mem_run TableBuilder.new (.preset σ) x
  rw [← presetItem_iff]
  simpa [TableOp.run, TableOp.onSet, TableBuilder.new, TableBuilder.build, Table.new, Table.items]
    using this

theorem preset_substitute (σ : Oracle) (text : Str) :
    substitute (itemSubst (TableBuilder.new.preset σ).build.items) text = text.map presetFold := by
  apply substitute_graph
  · intro i hi; exact preset_graph i (mem_presetTable.mp hi)
  · intro c hc
    obtain ⟨i, hi, h⟩ := preset_covered c hc
    exact ⟨i, mem_presetTable.mpr hi, h⟩

theorem preset_nonempty (σ : Oracle) : CellsNonEmpty (TableBuilder.new.preset σ).build.items :=
  fun i hi => preset_cells i (mem_presetTable.mp hi)

theorem allCharactersSet_ok (σ : Oracle) : ∃ x : CharacterConverter,
    Chanoma.allCharactersSet σ = .ok (.characterConverter x) ∧
    ∀ τ text, x.modify τ text = .ok (text.map presetFold) := by
  obtain ⟨x, h1, h2⟩ := fromTables_one_ok _ (preset_nonempty σ)
  refine ⟨x, by simp [Chanoma.allCharactersSet, h1], fun τ text => ?_⟩
  rw [modify_eq, h2, preset_substitute]

/-! ## neologdn -/

def neologdnConsts : List Item :=
  presetConsts.filter (fun i => i ∉ equalSign) ++ (choonpus ++ hyphens)

theorem mem_neologdnTable {σ : Oracle} {x : Item} :
    x ∈ (neologdnTable σ).items ↔ x ∈ neologdnConsts := by
  simp only [neologdnTable, Table.fromCorr, Table.items, mem_corrAdd, mem_corrSub, mem_allItems,
    presetItem_iff, neologdnConsts, List.mem_append, List.mem_filter, decide_eq_true_eq, or_assoc]

theorem neologdn_graph : ∀ i ∈ neologdnConsts, i.to.head? = i.from.head?.map neologdnFold := by
  decide +kernel

theorem neologdn_cells : ∀ i ∈ neologdnConsts, i.from ≠ [] ∧ i.to ≠ [] := by decide +kernel

theorem neologdnCodes_covered : ∀ n ∈ presetCodes, n ≠ 0xFF1D →
    ∃ i ∈ neologdnConsts, i.from.head? = some (Char.ofNat n) := by decide +kernel

theorem variants_covered : ∀ c ∈ choonpuVariants ++ hyphenVariants,
    ∃ i ∈ neologdnConsts, i.from.head? = some c := by decide +kernel

theorem neologdn_covered (c : Char) (h : neologdnFold c ≠ c) :
    ∃ i ∈ neologdnConsts, i.from.head? = some c := by
  unfold neologdnFold at h
  split at h
  · rename_i e; exact absurd e.symm h
  · rename_i he
    split at h
    · rename_i e; exact variants_covered c (by simp [e])
    · split at h
      · rename_i e; exact variants_covered c (by simp [e])
      · have := neologdnCodes_covered _ (presetFold_ne h) (by
          intro e
          apply he
          rw [← char_ofNat_toNat c, e])
        rwa [char_ofNat_toNat] at this

theorem neologdn_substitute (σ : Oracle) (text : Str) :
    substitute (itemSubst (neologdnTable σ).items) text = text.map neologdnFold := by
  apply substitute_graph
  · intro i hi; exact neologdn_graph i (mem_neologdnTable.mp hi)
  · intro c hc
    obtain ⟨i, hi, h⟩ := neologdn_covered c hc
    exact ⟨i, mem_neologdnTable.mpr hi, h⟩

theorem neologdn_nonempty (σ : Oracle) : CellsNonEmpty (neologdnTable σ).items :=
  fun i hi => neologdn_cells i (mem_neologdnTable.mp hi)

/-! ## Idempotence of the folds -/

theorem presetFold_codes_stable : ∀ n ∈ presetCodes,
    presetFold (presetFold (Char.ofNat n)) = presetFold (Char.ofNat n) := by decide +kernel

theorem presetFold_idem (c : Char) : presetFold (presetFold c) = presetFold c := by
  by_cases h : presetFold c = c
  · rw [h, h]
  · have := presetFold_codes_stable _ (presetFold_ne h)
    rwa [char_ofNat_toNat] at this

end Chanoma
