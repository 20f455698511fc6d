import Verif.Props.Neologdn
import Verif.Props.Compare
import Verif.Props.Conversion
import Verif.Props.Text
/-! # C67: ASCII texts -/

namespace Chanoma

/-- All characters are ASCII. -/
def IsAscii (t : Str) : Prop := ∀ c ∈ t, c.toNat < 128

theorem presetFold_ascii {c : Char} (h : c.toNat < 128) : presetFold c = c := by
  apply (C07_presetFold c).2 (by omega) <;> (rintro rfl; revert h; decide)

theorem neologdnFold_ascii {c : Char} (h : c.toNat < 128) : neologdnFold c = c := by
  have h1 : c ≠ '＝' := by rintro rfl; revert h; decide
  have h2 : c ∉ choonpuVariants := fun hm =>
    absurd h ((by decide : ∀ x ∈ choonpuVariants, ¬ x.toNat < 128) c hm)
  have h3 : c ∉ hyphenVariants := fun hm =>
    absurd h ((by decide : ∀ x ∈ hyphenVariants, ¬ x.toNat < 128) c hm)
  rw [neologdnFold, if_neg h1, if_neg h2, if_neg h3, presetFold_ascii h]

theorem spaceRule_mem {t : Str} {c : Char} (h : c ∈ spaceRule t) : c ∈ t := (spaceRule_sublist t).mem h

theorem voiced_ascii {a m : Char} (h : m.toNat < 128) : voiced a m = none := by
  have h1 : m ≠ '゛' := by rintro rfl; revert h; decide
  have h2 : m ≠ '゜' := by rintro rfl; revert h; decide
  simp [voiced, h1, h2]

theorem spec_ascii {t : Str} (h : IsAscii t) : neologdnSpec t = (spaceRule t).filter (· ≠ '~') := by
  have h1 : t.map neologdnFold = t := by
    conv => rhs; rw [← List.map_id t]
    exact List.map_congr_left fun c hc => neologdnFold_ascii (h c hc)
  have h2 : squeeze 'ー' t = t := squeeze_not_mem fun hm => absurd (h _ hm) (by decide)
  have h3 : (spaceRule t).filter (· ∉ tildeChars) = (spaceRule t).filter (· ≠ '~') := by
    apply List.filter_congr
    intro c hc
    have hc := h c (spaceRule_mem hc)
    have : c ∈ tildeChars ↔ c = '~' := by
      constructor
      · intro hm
        have := (by decide : ∀ x ∈ tildeChars, x.toNat < 128 → x = '~') c hm
        exact this hc
      · rintro rfl; decide
    simp [this]
  rw [neologdnSpec, h1, h2, h3]
  apply compose_fix
  intro u a m v e
  apply voiced_ascii
  apply h
  have hm : m ∈ (spaceRule t).filter (· ≠ '~') := by rw [e]; simp
  exact spaceRule_mem (List.mem_filter.mp hm).1

/-- C67: the preset leaves ASCII texts as they are. -/
theorem C67_preset (σ : Oracle) (c : Chanoma) (hc : Chanoma.preset σ = .ok c) (σs : Nat → Oracle)
    (debug : Bool) (text : Str) (h : IsAscii text) : c.normalize σs debug text = .ok text := by
  obtain ⟨c', h1, h2⟩ := C07_preset σ
  rw [h1] at hc; cases hc
  rw [h2]
  congr 1
  conv => rhs; rw [← List.map_id text]
  exact List.map_congr_left fun c hc => presetFold_ascii (h c hc)

/-- C67: from ASCII texts neologdn only deletes spaces, by the dotted-space rule, and then tildes.
The result is ASCII again, has the other characters in their order, and has a space only where the
text has one. -/
theorem C67_neologdn (σ : Oracle) (c : Chanoma) (hc : Chanoma.neologdn σ = .ok c) (σs : Nat → Oracle)
    (debug : Bool) (text : Str) (h : IsAscii text) :
    ∃ out, c.normalize σs debug text = .ok out ∧ out = (spaceRule text).filter (· ≠ '~') ∧ IsAscii out ∧
      out.filter (· ≠ ' ') = text.filter (fun x => x ≠ ' ' ∧ x ≠ '~') ∧ out.Sublist text := by
  obtain ⟨c', h1, h2⟩ := C16_neologdn σ
  rw [h1] at hc; cases hc
  refine ⟨_, h2 σs debug text, spec_ascii h, ?_, ?_, ?_⟩
  · rw [spec_ascii h]
    intro x hx
    exact h x (spaceRule_mem (List.mem_filter.mp hx).1)
  · rw [spec_ascii h, List.filter_filter]
    have e := congrArg (List.filter (· ≠ '~'))
      (C11_equations text [] [] 'a' 'a' 0 (by decide) (by decide)).1
    rw [List.filter_filter, List.filter_filter] at e
    simpa [Bool.and_comm] using e
  · rw [spec_ascii h]
    exact (List.filter_sublist).trans (spaceRule_sublist text)

/-- The spaces around a tilde disappear before the tilde does. -/
example : IsAscii (c! " v 1.0 - ~ release  notes ~/x ") ∧
    neologdnSpec (c! " v 1.0 - ~ release  notes ~/x ") = c! "v 1.0-release notes/x" :=
  ⟨by unfold IsAscii; decide, by decide +kernel⟩

end Chanoma
