import Verif.Props.Compare
import Verif.Props.Lines
import Verif.Props.Settled
/-! # C60 (exact separators) and C70: sound marks of half-width katakana -/

namespace Chanoma

/-- C60: the characters at which neologdn cuts every text are exactly those described by
`CutsNeologdn`. -/
theorem C60_cuts_iff (σ : Oracle) (c : Chanoma) (hc : Chanoma.neologdn σ = .ok c)
    (σs : Nat → Oracle) (debug : Bool) (sep : Char) :
    (∀ a b oa ob, c.normalize σs debug a = .ok oa → c.normalize σs debug b = .ok ob →
      c.normalize σs debug (a ++ sep :: b) = .ok (oa ++ sep :: ob)) ↔ CutsNeologdn sep := by
  obtain ⟨c', h1, h2⟩ := C16_neologdn σ
  rw [h1] at hc; cases hc
  simp only [h2, Outcome.ok.injEq]
  constructor
  · intro h
    have h : Cuts sep neologdnSpec := fun a b => h a b _ _ rfl rfl
    have h0 : neologdnSpec [sep] = [sep] := h [] []
    have hn : sep ∈ neologdnSpec [sep] := by rw [h0]; simp
    have hf := (spec_normal [sep]).folded sep hn
    have hsp : sep ≠ ' ' := by rintro rfl; revert h0; decide +kernel
    refine ⟨hf.1, hf.2, hsp, ?_, ?_, fun a => ⟨?_, ?_⟩⟩
    · rintro rfl
      have := h [] ['ー']
      revert this; decide +kernel
    · intro hal
      have h3 := h ['a', ' '] []
      have h4 : ∀ n ∈ List.range' 48 10 ++ (List.range' 65 26 ++ List.range' 97 26),
          neologdnSpec (['a', ' '] ++ [Char.ofNat n]) ≠ neologdnSpec ['a', ' '] ++ Char.ofNat n :: neologdnSpec [] := by
        decide +kernel
      refine h4 sep.toNat ?_ (by rw [char_ofNat_toNat]; exact h3)
      rw [← isAlnum_iff] at hal
      simp only [isAsciiAlphanumeric, Bool.or_eq_true, Bool.and_eq_true, decide_eq_true_eq] at hal
      simp only [List.mem_append, List.mem_range'_1]
      omega
    · cases hv : voiced sep a with
      | none => rfl
      | some b =>
        have h3 : ∀ r ∈ neologdnLigatures, ∀ x ∈ r.1.head?,
            neologdnSpec r.1 ≠ neologdnSpec [] ++ x :: neologdnSpec r.1.tail := by decide +kernel
        exact absurd (h [] [a]) (h3 _ (voiced_cases hv) sep rfl)
    · cases hv : voiced a sep with
      | none => rfl
      | some b =>
        have h3 : ∀ r ∈ neologdnLigatures, ∀ x ∈ r.1.getLast?,
            neologdnSpec r.1 ≠ neologdnSpec r.1.dropLast ++ x :: neologdnSpec [] := by decide +kernel
        exact absurd (h [a] []) (h3 _ (voiced_cases hv) sep rfl)
  · intro h a b oa ob ha hb
    subst ha; subst hb
    exact Cuts.neologdn h a b

/-- The sound marks of half-width katakana, U+FF9E and U+FF9F. -/
def halfMarks : List Char := ['ﾞ', 'ﾟ']

theorem halfMarks_cut {m : Char} (h : m ∈ halfMarks) : CutsNeologdn m :=
  cutsNeologdn_of
    ((by decide +kernel : ∀ m ∈ halfMarks, neologdnFold m = m ∧ m ∉ tildeChars ∧ m ≠ ' ' ∧ m ≠ 'ー' ∧
      ¬ IsAlnum (some m) ∧ m ≠ '゛' ∧ m ≠ '゜') m h)
    ((by decide +kernel : ∀ m ∈ halfMarks, ∀ r ∈ neologdnLigatures, m ∉ r.1) m h)

theorem calls_cut {sep : Char} (h1 : CutsNeologdn sep) (h2 : presetFold sep = sep) (calls : List Call)
    (ht : ∀ t, Call.addTable t ∉ calls) : Cuts sep (calls.foldl Call.meaning) := by
  induction calls with
  | nil => intro a b; rfl
  | cons call calls ih =>
    have ih := ih fun t h => ht t (List.mem_cons_of_mem _ h)
    cases call with
    | addTable t => exact absurd (by simp) (ht t)
    | usePreset σ => exact ih.comp (Cuts.map h2)
    | useNeologdn σ => exact ih.comp (Cuts.neologdn h1)

/-- C70: no sequence of presets and neologdns touches a sound mark of half-width katakana or what
stands around it: the texts before and after the mark are normalised separately. -/
theorem C70_half_width_marks (calls : List Call) (ht : ∀ t, Call.addTable t ∉ calls) (c : Chanoma)
    (hc : calls.foldlM Call.run Chanoma.new = .ok c) (m : Char) (hm : m ∈ halfMarks)
    (σs : Nat → Oracle) (a b : Str) :
    ∃ oa ob, c.normalize σs false a = .ok oa ∧ c.normalize σs false b = .ok ob ∧
      c.normalize σs false (a ++ m :: b) = .ok (oa ++ m :: ob) := by
  have h := fun t => ((C22_call_order Chanoma.new _).2 c hc).2 σs t t rfl
  refine ⟨_, _, h a, h b, ?_⟩
  rw [h]
  exact congrArg _ (calls_cut (halfMarks_cut hm)
    ((by decide +kernel : ∀ m ∈ halfMarks, presetFold m = m) m hm) calls ht a b)

/-- C70: a half-width letter with its half-width mark does not become the voiced letter: the letter
becomes full-width and the mark stays. With the full-width mark it becomes the voiced letter. -/
theorem C70_not_composed (σ : Oracle) (c : Chanoma) (hc : Chanoma.neologdn σ = .ok c) (σs : Nat → Oracle)
    (debug : Bool) (k f v half full : Char) (hmark : (half, full) ∈ [('ﾞ', '゛'), ('ﾟ', '゜')])
    (hk : 0xFF66 ≤ k.toNat ∧ k.toNat ≤ 0xFF9D) (hf : f = neologdnFold k) (hv : voiced f full = some v) :
    c.normalize σs debug [k, half] = .ok [f, half] ∧ c.normalize σs debug [k, full] = .ok [v] ∧
      c.normalize σs debug [f, full] = .ok [v] := by
  obtain ⟨c', h1, h2⟩ := C16_neologdn σ
  rw [h1] at hc; cases hc
  simp only [h2, Outcome.ok.injEq]
  subst hf
  have key : ∀ n ∈ List.range' 0xFF66 56, ∀ p ∈ [('ﾞ', '゛'), ('ﾟ', '゜')],
      ∀ v ∈ voiced (neologdnFold (Char.ofNat n)) p.2,
      neologdnSpec [Char.ofNat n, p.1] = [neologdnFold (Char.ofNat n), p.1] ∧
      neologdnSpec [Char.ofNat n, p.2] = [v] ∧ neologdnSpec [neologdnFold (Char.ofNat n), p.2] = [v] := by
    decide +kernel
  have := key k.toNat (by rw [List.mem_range'_1]; omega) _ hmark v (by rw [char_ofNat_toNat]; exact hv)
  rw [char_ofNat_toNat] at this
  exact this

/-- The hypotheses are met: `ｶﾞ` becomes `カﾞ`, `ｶ゛` and `カ゛` become `ガ`. -/
example (σ : Oracle) (σs : Nat → Oracle) (c : Chanoma) (hc : Chanoma.neologdn σ = .ok c) :
    c.normalize σs false (c! "ｶﾞ") = .ok (c! "カﾞ") ∧ c.normalize σs false (c! "ｶ゛") = .ok (c! "ガ") ∧
      c.normalize σs false (c! "カ゛") = .ok (c! "ガ") :=
  C70_not_composed σ c hc σs false 'ｶ' 'カ' 'ガ' 'ﾞ' '゛' (by decide) (by decide) (by decide +kernel)
    (by decide +kernel)

example : CutsNeologdn 'ﾟ' := halfMarks_cut (by decide)

end Chanoma
