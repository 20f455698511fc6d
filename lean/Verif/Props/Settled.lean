import Verif.Spec.Settled
import Verif.Props.Neologdn
import Verif.Props.Conversion
/-! # C61: texts that are left as they are, and texts that can come out -/

namespace Chanoma

theorem normal_iff_settled (t : Str) : Normal t ↔ Settled t := by
  constructor
  · intro h
    exact ⟨h.folded, h.spaces, fun u a m v e => compose_no_pair t u v a m (by rw [h.composed, e])⟩
  · intro h
    exact ⟨h.1, h.2.1, compose_fix h.2.2⟩

/-- Put a tilde behind every `ー`. -/
def spread : Str → Str
  | [] => []
  | c :: t => if c = 'ー' then 'ー' :: '~' :: spread t else c :: spread t

theorem spread_head (t : Str) : (spread t).head? = t.head? := by
  cases t with
  | nil => rfl
  | cons c t =>
    rw [spread]; split
    · rename_i h; simp [h]
    · rfl

theorem spread_squeeze (t : Str) : squeeze 'ー' (spread t) = spread t := by
  induction t with
  | nil => rfl
  | cons c t ih =>
    rw [spread]; split
    · have h : squeeze 'ー' ('~' :: spread t) = '~' :: spread t := by
        rw [squeeze, if_neg (by simp), ih]
      rw [squeeze, if_neg (by simp), h]
    · rename_i h
      rw [squeeze, if_neg (by simp [h]), ih]

theorem spread_spOk (t : Str) {p : Bool} (h : spOk p t = true) : spOk p (spread t) = true := by
  induction t generalizing p with
  | nil => rfl
  | cons c t ih =>
    rw [spOk] at h
    rw [spread]; split
    · rename_i hc
      subst hc
      rw [if_neg (by decide)] at h
      rw [spOk, if_neg (by decide), spOk, if_neg (by decide)]
      exact ih (by
        rw [show isAsciiAlphanumeric '~' = false by decide]
        rwa [show isAsciiAlphanumeric 'ー' = false by decide] at h)
    · rw [spOk]
      split
      · rename_i hc
        rw [if_pos hc] at h
        rw [spread_head]
        simp only [Bool.and_eq_true] at h ⊢
        exact ⟨h.1, ih h.2⟩
      · rename_i hc
        rw [if_neg hc] at h
        exact ih h

theorem spread_mem {t : Str} {c : Char} (h : c ∈ spread t) : c ∈ t ∨ c = '~' := by
  induction t with
  | nil => simp [spread] at h
  | cons a t ih =>
    rw [spread] at h
    split at h
    · rename_i ha
      simp only [List.mem_cons] at h ⊢
      rcases h with h | h | h
      · simp [h, ha]
      · exact .inr h
      · rcases ih h with h | h
        · exact .inl (.inr h)
        · exact .inr h
    · simp only [List.mem_cons] at h ⊢
      rcases h with h | h
      · exact .inl (.inl h)
      · rcases ih h with h | h
        · exact .inl (.inr h)
        · exact .inr h

theorem spread_filter {t : Str} (h : ∀ c ∈ t, c ∉ tildeChars) :
    (spread t).filter (· ∉ tildeChars) = t := by
  induction t with
  | nil => rfl
  | cons c t ih =>
    have ih := ih fun d hd => h d (List.mem_cons_of_mem _ hd)
    have hc := h c (by simp)
    rw [spread]; split
    · rename_i e
      subst e
      rw [List.filter_cons_of_pos (by simpa using hc), List.filter_cons_of_neg (by decide), ih]
    · rw [List.filter_cons_of_pos (by simpa using hc), ih]

theorem spec_spread {t : Str} (h : Settled t) : neologdnSpec (spread t) = t := by
  have hf : (spread t).map neologdnFold = spread t := by
    conv => rhs; rw [← List.map_id (spread t)]
    refine List.map_congr_left fun c hc => ?_
    rcases spread_mem hc with hc | rfl
    · exact (h.1 c hc).1
    · decide +kernel
  have hs : SpacesOk (spread t) := by
    rw [spacesOk_iff]; exact spread_spOk t ((spacesOk_iff t).mp h.2.1)
  rw [neologdnSpec, hf, spread_squeeze, spaceRule_fix hs, spread_filter fun c hc => (h.1 c hc).2,
    compose_fix h.2.2]

/-- C61: a text is the neologdn normal form of some text if and only if it is settled. -/
theorem C61_neologdn_outputs (σ : Oracle) (c : Chanoma) (hc : Chanoma.neologdn σ = .ok c)
    (σs : Nat → Oracle) (debug : Bool) (out : Str) :
    (∃ text, c.normalize σs debug text = .ok out) ↔ Settled out := by
  obtain ⟨c', h1, h2⟩ := C16_neologdn σ
  rw [h1] at hc; cases hc
  constructor
  · rintro ⟨text, h⟩
    rw [h2] at h; cases h
    exact (normal_iff_settled _).mp (spec_normal text)
  · intro h
    exact ⟨spread out, by rw [h2, spec_spread h]⟩

/-- C61: neologdn leaves a text as it is if and only if the text is settled and has no two `ー`
in a row. -/
theorem C61_neologdn_unchanged (σ : Oracle) (c : Chanoma) (hc : Chanoma.neologdn σ = .ok c)
    (σs : Nat → Oracle) (debug : Bool) (text : Str) :
    c.normalize σs debug text = .ok text ↔
      Settled text ∧ ∀ u v, text ≠ u ++ 'ー' :: 'ー' :: v := by
  obtain ⟨c', h1, h2⟩ := C16_neologdn σ
  rw [h1] at hc; cases hc
  rw [h2, Outcome.ok.injEq]
  constructor
  · intro h
    have hn : Normal text := h ▸ spec_normal text
    refine ⟨(normal_iff_settled _).mp hn, fun u v e => ?_⟩
    have hs := (normal_spec hn).1
    rw [h] at hs
    exact squeeze_no_pair 'ー' text u v (by rw [← hs, e])
  · rintro ⟨h3, h4⟩
    rw [(normal_spec ((normal_iff_settled _).mpr h3)).1, squeeze_fix h4]

/-- C61: for the preset both are the texts without a character that is folded. -/
theorem C61_preset (σ : Oracle) (c : Chanoma) (hc : Chanoma.preset σ = .ok c)
    (σs : Nat → Oracle) (debug : Bool) (t : Str) :
    ((∃ text, c.normalize σs debug text = .ok t) ↔ ∀ ch ∈ t, presetFold ch = ch) ∧
    (c.normalize σs debug t = .ok t ↔ ∀ ch ∈ t, presetFold ch = ch) := by
  obtain ⟨c', h1, h2⟩ := C07_preset σ
  rw [h1] at hc; cases hc
  have key : c.normalize σs debug t = .ok t ↔ ∀ ch ∈ t, presetFold ch = ch := by
    rw [h2, Outcome.ok.injEq]
    constructor
    · intro h ch hch
      exact List.map_inj_left.mp (h.trans (List.map_id t).symm) ch hch
    · intro h
      conv => rhs; rw [← List.map_id t]
      exact List.map_congr_left h
  refine ⟨⟨?_, fun h => ⟨t, key.mpr h⟩⟩, key⟩
  rintro ⟨text, h⟩ ch hch
  rw [h2] at h; cases h
  obtain ⟨d, -, rfl⟩ := List.mem_map.mp hch
  exact presetFold_idem d

/-- A settled text with a run of `ー` that can come out, but does not stay as it is; and a
text that stays as it is. -/
example : neologdnSpec (c! "ス ー ー パー 1") = c! "スーーパー1" ∧ neologdnSpec (c! "スーーパー1") = c! "スーパー1" ∧
    neologdnSpec (c! "ＣＤが a 1。") = c! "CDがa 1。" ∧ neologdnSpec (c! "CDがa 1。") = c! "CDがa 1。" := by decide +kernel

example : Settled (c! "スーーパー1") :=
  (normal_iff_settled _).mp ((by decide +kernel : neologdnSpec (c! "ス ー ー パー 1") = c! "スーーパー1") ▸ spec_normal _)

end Chanoma
