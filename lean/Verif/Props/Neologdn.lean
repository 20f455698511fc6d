import Verif.Proofs.Neologdn
import Verif.Model.Chanoma
/-! # C16-C19: neologdn -/

namespace Chanoma

/-- C16: `Chanoma::neologdn` succeeds, and its normaliser computes `neologdnSpec` for every
hash order and log level. -/
theorem C16_neologdn (σ : Oracle) :
    ∃ c, Chanoma.neologdn σ = .ok c ∧
      ∀ σs debug text, c.normalize σs debug text = .ok (neologdnSpec text) := by
  obtain ⟨x, h1, -, h2, h3⟩ := neologdn_new σ
  refine ⟨⟨[.neologdn x]⟩, by simp [Chanoma.neologdn, h1], fun σs debug text => ?_⟩
  cases debug with
  | false => simp [Chanoma.normalize, ModifierKind.modify, h2]
  | true =>
    simp [Chanoma.normalize, Chanoma.normalizeWithPositions, ModifierKind.modifyWithPositions, h3,
      ModifiedRecords.text, unwrap]

/-- The phrases of `/repo/tests/neologdn.rs`, through the specification. -/
example : neologdnSpec (c! "ﾊﾝｶｸ") = c! "ハンカク" ∧
    neologdnSpec (c! "o₋o") = c! "o-o" ∧
    neologdnSpec (c! "majika━") = c! "majikaー" ∧
    neologdnSpec (c! "わ〰い") = c! "わい" ∧
    neologdnSpec (c! "スーパーーーー") = c! "スーパー" ∧
    neologdnSpec (c! "!#") = c! "!#" ∧
    neologdnSpec (c! "ゼンカク　スペース") = c! "ゼンカクスペース" ∧
    neologdnSpec (c! "検索 エンジン 自作 入門 を 買い ました!!!") = c! "検索エンジン自作入門を買いました!!!" ∧
    neologdnSpec (c! "　　　ＰＲＭＬ　　副　読　本　　　") = c! "PRML副読本" ∧
    neologdnSpec (c! "Coding the Matrix") = c! "Coding the Matrix" ∧
    neologdnSpec (c! "か゛は゜う゛ホ゜") = c! "がぱゔポ" := by decide +kernel

/-- C17: what a neologdn result does not contain. -/
theorem C17_no_residue (σ : Oracle) (c : Chanoma) (hc : Chanoma.neologdn σ = .ok c)
    (σs : Nat → Oracle) (debug : Bool) (text out : Str) (ho : c.normalize σs debug text = .ok out) :
    (∀ ch ∈ out,
      -- full-width alphanumerics
      ¬ (0xFF10 ≤ ch.toNat ∧ ch.toNat ≤ 0xFF19) ∧
      ¬ (0xFF21 ≤ ch.toNat ∧ ch.toNat ≤ 0xFF3A) ∧
      ¬ (0xFF41 ≤ ch.toNat ∧ ch.toNat ≤ 0xFF5A) ∧
      -- half-width katakana (and its punctuation, and `ｰ`)
      ¬ (0xFF61 ≤ ch.toNat ∧ ch.toNat ≤ 0xFF9D) ∧
      ch ∉ hyphenVariants ∧ ch ≠ '－' ∧ ch ∉ choonpuVariants ∧ ch ∉ tildeChars ∧ ch ≠ '　') ∧
    SpacesOk out ∧
    (∀ u a m v, out = u ++ a :: m :: v → voiced a m = none) := by
  obtain ⟨c', h1, h2⟩ := C16_neologdn σ
  rw [h1] at hc; cases hc
  rw [h2] at ho; cases ho
  have hn := spec_normal text
  refine ⟨fun ch hch => ?_, hn.spaces, fun u a m v e => compose_no_pair (neologdnSpec text) u v a m (by rw [hn.composed, e])⟩
  obtain ⟨hf, ht⟩ := hn.folded ch hch
  have hcodes : ∀ n ∈ presetCodes, n ≠ 0xFF1D → neologdnFold (Char.ofNat n) ≠ Char.ofNat n := by
    decide +kernel
  have key : ch.toNat ∈ presetCodes → ch.toNat = 0xFF1D := by
    intro h
    apply Classical.byContradiction
    intro hne
    have := hcodes _ h hne
    rw [char_ofNat_toNat] at this
    exact this hf
  have hr1 : ∀ n : Nat, 0xFF10 ≤ n → n ≤ 0xFF19 → n ∈ presetCodes := by
    intro n h1 h2
    have : ∀ i ∈ List.range 10, 0xFF10 + i ∈ presetCodes := by decide +kernel
    have := this (n - 0xFF10) (by simp; omega)
    rwa [show 0xFF10 + (n - 0xFF10) = n by omega] at this
  have hr2 : ∀ n : Nat, 0xFF21 ≤ n → n ≤ 0xFF3A → n ∈ presetCodes := by
    intro n h1 h2
    have : ∀ i ∈ List.range 26, 0xFF21 + i ∈ presetCodes := by decide +kernel
    have := this (n - 0xFF21) (by simp; omega)
    rwa [show 0xFF21 + (n - 0xFF21) = n by omega] at this
  have hr3 : ∀ n : Nat, 0xFF41 ≤ n → n ≤ 0xFF5A → n ∈ presetCodes := by
    intro n h1 h2
    have : ∀ i ∈ List.range 26, 0xFF41 + i ∈ presetCodes := by decide +kernel
    have := this (n - 0xFF41) (by simp; omega)
    rwa [show 0xFF41 + (n - 0xFF41) = n by omega] at this
  have hr4 : ∀ n : Nat, 0xFF61 ≤ n → n ≤ 0xFF9D → n = 0xFF70 ∨ n ∈ presetCodes := by
    intro n h1 h2
    have : ∀ i ∈ List.range 61, 0xFF61 + i = 0xFF70 ∨ 0xFF61 + i ∈ presetCodes := by decide +kernel
    have := this (n - 0xFF61) (by simp; omega)
    rwa [show 0xFF61 + (n - 0xFF61) = n by omega] at this
  have hch : ∀ d ∈ '－' :: '　' :: (choonpuVariants ++ hyphenVariants), neologdnFold d ≠ d := by
    decide +kernel
  have hch' : ch ∉ '－' :: '　' :: (choonpuVariants ++ hyphenVariants) := fun h => hch ch h hf
  simp only [List.mem_cons, List.mem_append, not_or] at hch'
  refine ⟨?_, ?_, ?_, ?_, hch'.2.2.2, hch'.1, hch'.2.2.1, ht, hch'.2.1⟩
  · rintro ⟨h1, h2⟩; have := key (hr1 _ h1 h2); omega
  · rintro ⟨h1, h2⟩; have := key (hr2 _ h1 h2); omega
  · rintro ⟨h1, h2⟩; have := key (hr3 _ h1 h2); omega
  · rintro ⟨h1, h2⟩
    rcases hr4 _ h1 h2 with h | h
    · apply hch'.2.2.1
      have : ch = 'ｰ' := by rw [← char_ofNat_toNat ch, h]
      rw [this]; decide
    · have := key h; omega

/-- An output in which all removable kinds of characters occurred. -/
example : neologdnSpec (c! "Ａ １〜ﾊ゛－ｰー　か゛") = c! "A 1バ-ーが" := by decide +kernel

/-- C18 is false: a space or a tilde removed after the reduction step joins two `ー`. -/
theorem C18_repeated_choonpu (σ : Oracle) (c : Chanoma) (hc : Chanoma.neologdn σ = .ok c)
    (σs : Nat → Oracle) (debug : Bool) :
    c.normalize σs debug (c! "ー ー") = .ok (c! "ーー") ∧
    c.normalize σs debug (c! "ー~ー") = .ok (c! "ーー") := by
  obtain ⟨c', h1, h2⟩ := C16_neologdn σ
  rw [h1] at hc; cases hc
  rw [h2, h2]
  decide +kernel

/-- C18, exactly when it holds: the result has two adjacent `ー` if and only if in the
width-folded text two `ー` are separated by spaces and tildes only (at least one).
Missing for the full claim: such texts, for which `C18_repeated_choonpu` refutes it. -/
theorem C18_choonpu_partial (σ : Oracle) (c : Chanoma) (hc : Chanoma.neologdn σ = .ok c)
    (σs : Nat → Oracle) (debug : Bool) (text out : Str) (ho : c.normalize σs debug text = .ok out) :
    (∃ u v, out = u ++ 'ー' :: 'ー' :: v) ↔
      ∃ u x v, text.map neologdnFold = u ++ 'ー' :: (x ++ 'ー' :: v) ∧ x ≠ [] ∧
        ∀ ch ∈ x, ch = ' ' ∨ ch ∈ tildeChars := by
  obtain ⟨c', h1, h2⟩ := C16_neologdn σ
  rw [h1] at hc; cases hc
  rw [h2] at ho; cases ho
  exact spec_pair_iff text

/-- Corollary in the direction of the claim, with a condition on the input only. -/
theorem C18_no_gap_partial (σ : Oracle) (c : Chanoma) (hc : Chanoma.neologdn σ = .ok c)
    (σs : Nat → Oracle) (debug : Bool) (text out : Str) (ho : c.normalize σs debug text = .ok out)
    (h : ' ' ∉ text ∧ '　' ∉ text ∧ ∀ ch ∈ tildeChars, ch ∉ text) (u v : Str) :
    out ≠ u ++ 'ー' :: 'ー' :: v := by
  intro e
  obtain ⟨u', x, v', hm, hne, hx⟩ := (C18_choonpu_partial σ c hc σs debug text out ho).mp ⟨u, v, e⟩
  cases x with
  | nil => exact hne rfl
  | cons d x =>
    have hd : d ∈ text.map neologdnFold := by rw [hm]; simp
    obtain ⟨b, hb, hbd⟩ := List.mem_map.mp hd
    have hpre : ∀ n ∈ presetCodes, (neologdnFold (Char.ofNat n) = ' ' ∨ neologdnFold (Char.ofNat n) ∈ tildeChars) →
        Char.ofNat n = '　' ∨ Char.ofNat n ∈ tildeChars := by decide +kernel
    have hb2 : b = ' ' ∨ b = '　' ∨ b ∈ tildeChars := by
      have hx' := hx d (by simp)
      rw [← hbd] at hx'
      by_cases hp : presetFold b = b
      · unfold neologdnFold at hx'
        split at hx'
        · exact absurd hx' (by decide)
        · split at hx'
          · exact absurd hx' (by decide)
          · split at hx'
            · exact absurd hx' (by decide)
            · rw [hp] at hx'
              rcases hx' with hx' | hx' <;> simp [hx']
      · have := hpre _ (presetFold_ne hp) (by rw [char_ofNat_toNat]; exact hx')
        rw [char_ofNat_toNat] at this
        exact .inr this
    rcases hb2 with rfl | rfl | hb2
    · exact h.1 hb
    · exact h.2.1 hb
    · exact h.2.2 b hb2 hb

example : ' ' ∉ c! "スーーパーｰー" ∧ '　' ∉ c! "スーーパーｰー" ∧ ∀ ch ∈ tildeChars, ch ∉ c! "スーーパーｰー" := by
  decide +kernel
example : neologdnSpec (c! "スーーパーｰー") = c! "スーパー" := by decide +kernel

/-- C19 is false: normalising the result of `ー ー` again changes it. -/
theorem C19_not_idempotent (σ : Oracle) (c : Chanoma) (hc : Chanoma.neologdn σ = .ok c)
    (σs : Nat → Oracle) (debug : Bool) :
    ∃ text out out', c.normalize σs debug text = .ok out ∧ c.normalize σs debug out = .ok out' ∧
      out ≠ out' := by
  obtain ⟨c', h1, h2⟩ := C16_neologdn σ
  rw [h1] at hc; cases hc
  refine ⟨c! "ー ー", _, _, h2 _ _ _, h2 _ _ _, ?_⟩
  decide +kernel

/-- C19, what holds: a second pass only collapses the runs of `ー` of the first result; it
changes nothing exactly if that has no adjacent `ー`; and a third pass changes nothing.
Missing for the full claim: texts whose first result has adjacent `ー`, for which
`C19_not_idempotent` refutes it. -/
theorem C19_second_pass_partial (σ : Oracle) (c : Chanoma) (hc : Chanoma.neologdn σ = .ok c)
    (σs τs ρs : Nat → Oracle) (debug : Bool) (text out : Str)
    (ho : c.normalize σs debug text = .ok out) :
    c.normalize τs debug out = .ok (squeeze 'ー' out) ∧
    (c.normalize τs debug out = .ok out ↔ ∀ u v, out ≠ u ++ 'ー' :: 'ー' :: v) ∧
    c.normalize ρs debug (squeeze 'ー' out) = .ok (squeeze 'ー' out) := by
  obtain ⟨c', h1, h2⟩ := C16_neologdn σ
  rw [h1] at hc; cases hc
  rw [h2] at ho; cases ho
  obtain ⟨h3, h4⟩ := normal_spec (spec_normal text)
  obtain ⟨h5, -⟩ := normal_spec h4
  rw [h2, h2, h3, h5, squeeze_idem]
  refine ⟨rfl, ?_, rfl⟩
  constructor
  · intro e u v e2
    have e' : squeeze 'ー' (neologdnSpec text) = neologdnSpec text := by
      simpa using e
    exact squeeze_no_pair 'ー' (neologdnSpec text) u v (by rw [e', e2])
  · intro h; rw [squeeze_fix h]

/-- C19, iterated: from the second pass on, any number of further passes changes nothing. -/
theorem C19_iterate_partial (σ : Oracle) (c : Chanoma) (hc : Chanoma.neologdn σ = .ok c)
    (p q : (Nat → Oracle) × Bool) (more : List ((Nat → Oracle) × Bool)) (text : Str) :
    (p :: q :: more).foldlM (fun t pass => c.normalize pass.1 pass.2 t) text =
      [p, q].foldlM (fun t pass => c.normalize pass.1 pass.2 t) text := by
  obtain ⟨c', h1, h2⟩ := C16_neologdn σ
  rw [h1] at hc; cases hc
  obtain ⟨h3, h4⟩ := normal_spec (spec_normal text)
  have h5 := (normal_spec h4).1
  rw [squeeze_idem] at h5
  simp only [List.foldlM_cons, List.foldlM_nil, h2, Outcome.ok_bind, h3, Outcome.pure_eq]
  clear h3 h4
  generalize squeeze 'ー' (neologdnSpec text) = s at h5
  induction more with
  | nil => rfl
  | cons r more ih => simp only [List.foldlM_cons, h5, Outcome.ok_bind]; exact ih

example : neologdnSpec (neologdnSpec (c! "か ゛ー ーａ")) = c! "がーa" ∧
    neologdnSpec (c! "か ゛ー ーａ") = c! "がーーa" := by decide +kernel

end Chanoma
