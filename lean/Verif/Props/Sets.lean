import Verif.Props.Cjk
import Verif.Spec.Sets
import Verif.Model.Cli
/-! # C51: the predefined character sets -/

namespace Chanoma

/-- Decide a claim about all characters that the preset moves by trying each of them. -/
theorem moved_cases {P : Char → Prop} (h : ∀ n ∈ presetCodes, P (Char.ofNat n)) {c : Char}
    (hc : c.toNat ∈ presetCodes) : P c := by
  have := h c.toNat hc
  rwa [char_ofNat_toNat] at this

theorem wideDigit_moved {c : Char} (h : IsWideDigit c) : c.toNat ∈ presetCodes := by
  unfold IsWideDigit at h
  simp only [presetCodes, List.mem_append, List.mem_filter, List.mem_range'_1]
  left; simp; omega

theorem wideLetter_moved {c : Char} (h : IsWideLetter c) : c.toNat ∈ presetCodes := by
  unfold IsWideLetter at h
  simp only [presetCodes, List.mem_append, List.mem_filter, List.mem_range'_1]
  left; simp; omega

theorem narrowKana_moved {c : Char} (h : IsNarrowKana c) : c.toNat ∈ presetCodes := by
  simp only [presetCodes, List.mem_append, List.mem_filter, List.mem_range'_1]
  rcases h with h | rfl
  · right; left; simp; omega
  · right; right; decide

theorem wideSymbol_moved {c : Char} (h : IsWideSymbol c) : c.toNat ∈ presetCodes := by
  simp only [presetCodes, List.mem_append, List.mem_filter, List.mem_range'_1]
  rcases h with h | h
  · left; simp; omega
  · right; right
    simp only [List.mem_cons, List.not_mem_nil, or_false] at h
    rcases h with rfl | rfl | rfl | rfl <;> decide

/-- The items of a set that turns each character of a class into its `presetFold`. -/
theorem set_items {consts : List Item} {P : Char → Prop} (σ : Oracle)
    (h1 : ∀ i ∈ consts, ∃ c ∈ i.from.head?, P c ∧ i = ⟨[c], [presetFold c]⟩)
    (h2 : ∀ n ∈ presetCodes, P (Char.ofNat n) →
      (⟨[Char.ofNat n], [presetFold (Char.ofNat n)]⟩ : Item) ∈ consts)
    (hm : ∀ {c}, P c → c.toNat ∈ presetCodes) (x : Item) :
    x ∈ sumChain σ consts ↔ ∃ c, P c ∧ x = ⟨[c], [presetFold c]⟩ := by
  rw [mem_sumChain]
  constructor
  · intro h
    obtain ⟨c, -, h3⟩ := h1 x h
    exact ⟨c, h3⟩
  · rintro ⟨c, hc, rfl⟩
    exact moved_cases (P := fun c => P c → (⟨[c], [presetFold c]⟩ : Item) ∈ consts) h2 (hm hc) hc

/-- C51: digits, letters, kana and symbols each list exactly their class of characters, with the
folded character as target. -/
theorem C51_sets (σ : Oracle) (x : Item) :
    (x ∈ digitsItems σ ↔ ∃ c, IsWideDigit c ∧ x = ⟨[c], [presetFold c]⟩) ∧
    (x ∈ alphabetsItems σ ↔ ∃ c, IsWideLetter c ∧ x = ⟨[c], [presetFold c]⟩) ∧
    (x ∈ kanasItems σ ↔ ∃ c, IsNarrowKana c ∧ x = ⟨[c], [presetFold c]⟩) ∧
    (x ∈ punctuationsItems σ ↔ ∃ c, IsWideSymbol c ∧ x = ⟨[c], [presetFold c]⟩) :=
  ⟨set_items σ (by decide +kernel) (by decide +kernel) wideDigit_moved x,
   set_items σ (by decide +kernel) (by decide +kernel) wideLetter_moved x,
   set_items σ (by decide +kernel) (by decide +kernel) narrowKana_moved x,
   set_items σ (by decide +kernel) (by decide +kernel) wideSymbol_moved x⟩

/-- C51: every set is listed in strictly increasing order, independently of the hash order. -/
theorem C51_listing (σ τ : Oracle) :
    (digitsItems σ = digitsItems τ ∧ (digitsItems σ).Pairwise ItemLt) ∧
    (alphabetsItems σ = alphabetsItems τ ∧ (alphabetsItems σ).Pairwise ItemLt) ∧
    (kanasItems σ = kanasItems τ ∧ (kanasItems σ).Pairwise ItemLt) ∧
    (punctuationsItems σ = punctuationsItems τ ∧ (punctuationsItems σ).Pairwise ItemLt) ∧
    (cjkItems σ = cjkItems τ ∧ (cjkItems σ).Pairwise ItemLt) ∧
    (allItems σ = allItems τ ∧ (allItems σ).Pairwise ItemLt) := by
  have key : ∀ cs, sumChain σ cs = sumChain τ cs ∧ (sumChain σ cs).Pairwise ItemLt := fun cs =>
    ⟨ssorted_ext (sumChain_ssorted σ cs) (sumChain_ssorted τ cs) fun x => by
      rw [mem_sumChain, mem_sumChain], sumChain_ssorted σ cs⟩
  refine ⟨key _, key _, key _, key _, key _, ?_, corrAdd_ssorted _ _ _⟩
  exact ssorted_ext (corrAdd_ssorted _ _ _) (corrAdd_ssorted _ _ _) fun x => by
    simp only [allItems, mem_corrAdd, digitsItems, punctuationsItems, alphabetsItems, kanasItems,
      mem_sumChain]

/-- C51: the classes do not overlap, and together they are what the preset changes. -/
theorem C51_partition (c : Char) :
    (IsWideDigit c → ¬ IsWideLetter c ∧ ¬ IsNarrowKana c ∧ ¬ IsWideSymbol c) ∧
    (IsWideLetter c → ¬ IsNarrowKana c ∧ ¬ IsWideSymbol c) ∧
    (IsNarrowKana c → ¬ IsWideSymbol c) ∧
    (presetFold c ≠ c ↔ IsWideDigit c ∨ IsWideLetter c ∨ IsNarrowKana c ∨ IsWideSymbol c) := by
  have key : ∀ n ∈ presetCodes,
      (IsWideDigit (Char.ofNat n) → ¬ IsWideLetter (Char.ofNat n) ∧ ¬ IsNarrowKana (Char.ofNat n) ∧
        ¬ IsWideSymbol (Char.ofNat n)) ∧
      (IsWideLetter (Char.ofNat n) → ¬ IsNarrowKana (Char.ofNat n) ∧ ¬ IsWideSymbol (Char.ofNat n)) ∧
      (IsNarrowKana (Char.ofNat n) → ¬ IsWideSymbol (Char.ofNat n)) ∧
      presetFold (Char.ofNat n) ≠ Char.ofNat n ∧
      (IsWideDigit (Char.ofNat n) ∨ IsWideLetter (Char.ofNat n) ∨ IsNarrowKana (Char.ofNat n) ∨
        IsWideSymbol (Char.ofNat n)) := by decide +kernel
  by_cases hm : c.toNat ∈ presetCodes
  · have := moved_cases (P := fun c =>
      (IsWideDigit c → ¬ IsWideLetter c ∧ ¬ IsNarrowKana c ∧ ¬ IsWideSymbol c) ∧
      (IsWideLetter c → ¬ IsNarrowKana c ∧ ¬ IsWideSymbol c) ∧
      (IsNarrowKana c → ¬ IsWideSymbol c) ∧
      presetFold c ≠ c ∧ (IsWideDigit c ∨ IsWideLetter c ∨ IsNarrowKana c ∨ IsWideSymbol c)) key hm
    exact ⟨this.1, this.2.1, this.2.2.1, fun _ => this.2.2.2.2, fun _ => this.2.2.2.1⟩
  · exact ⟨fun h => absurd (wideDigit_moved h) hm, fun h => absurd (wideLetter_moved h) hm,
      fun h => absurd (narrowKana_moved h) hm, fun h => absurd (presetFold_ne h) hm, fun h => by
        rcases h with h | h | h | h
        · exact absurd (wideDigit_moved h) hm
        · exact absurd (wideLetter_moved h) hm
        · exact absurd (narrowKana_moved h) hm
        · exact absurd (wideSymbol_moved h) hm⟩

example : IsWideDigit '７' ∧ IsWideLetter 'ｚ' ∧ IsNarrowKana 'ｶ' ∧ IsWideSymbol '〜' := by decide

end Chanoma
