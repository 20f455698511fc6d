import Verif.Props.Positions
/-! # C75: the numbers in reported positions -/

namespace Chanoma

theorem squeeze_strLen_le (c : Char) (s : Str) : strLen (squeeze c s) ≤ strLen s := by
  induction s with
  | nil => simp [squeeze]
  | cons a s ih =>
    rw [strLen_cons]
    cases s with
    | nil => simp [squeeze, strLen]
    | cons b s =>
      rw [squeeze]
      split
      · omega
      · rw [strLen_cons]; omega

theorem reducerPositions_ne {c : Char} {total : Nat} {segs : List (Nat × Str)} {pre : Str}
    (hok : RunsOk c segs) : ∀ p ∈ reducerPositions c total pre segs, p.from ≠ [] := by
  induction segs generalizing pre with
  | nil => simp [reducerPositions]
  | cons s rest ih =>
    have hpos : 0 < s.1 := by
      cases rest with
      | nil => exact hok.1
      | cons _ _ => exact hok.1
    have hrest : RunsOk c rest := by
      cases rest with
      | nil => trivial
      | cons _ _ => exact hok.2.2.2
    intro p hp
    rcases List.mem_cons.1 hp with rfl | hp
    · simp only [ne_eq, List.replicate_eq_nil_iff]; omega
    · exact ih hrest p hp

theorem reducerPositions_bounds (c : Char) (total : Nat) (segs : List (Nat × Str)) :
    ∀ pre, strLen pre + strLen (runsText c segs) ≤ total → RunsOk c segs →
    (reducerPositions c total pre segs).length ≤ (runsText c segs).length ∧
    ∀ p ∈ reducerPositions c total pre segs, p.index ≤ total ∧ p.length ≤ total ∧ p.utf8Index ≤ total ∧
      p.utf8Length ≤ total ∧ p.from <:+: pre ++ runsText c segs ∧ p.length = strLen p.from ∧
      p.utf8Length = p.from.length ∧ p.to = [c] := by
  induction segs with
  | nil => intro pre _ _; simp [reducerPositions]
  | cons s rest ih =>
    intro pre h hok
    have hpos : 0 < s.1 := by
      cases rest with
      | nil => exact hok.1
      | cons _ _ => exact hok.1
    have hrest : RunsOk c rest := by
      cases rest with
      | nil => trivial
      | cons _ _ => exact hok.2.2.2
    have e : runsText c (s :: rest) = List.replicate s.1 c ++ s.2 ++ runsText c rest := by
      simp [runsText]
    rw [e] at h ⊢
    simp only [strLen_append, strLen_replicate] at h
    obtain ⟨h1, h2⟩ := ih (pre ++ List.replicate s.1 c ++ s.2)
      (by simp only [strLen_append, strLen_replicate]; omega) hrest
    refine ⟨by simp only [reducerPositions, List.length_cons, List.length_append, List.length_replicate]; omega, ?_⟩
    intro p hp
    rcases List.mem_cons.1 hp with rfl | hp
    · have hc := Char.utf8Size_pos c
      have hsz : c.utf8Size ≤ s.1 * c.utf8Size := Nat.le_mul_of_pos_left _ hpos
      have hsz' : s.1 ≤ s.1 * c.utf8Size := Nat.le_mul_of_pos_right _ hc
      have hq := squeeze_strLen_le c pre
      have hl := length_le_strLen pre
      refine ⟨by simp only; omega, by simp only; omega, ?_, by simp only; omega,
        ⟨pre, s.2 ++ runsText c rest, by simp⟩, by simp [strLen_replicate], by simp, rfl⟩
      simp only
      split <;> omega
    · have := h2 p hp
      simpa using this

theorem substPositions_length (f : Char → Option Char) (text pre : Str) :
    (substPositions f pre text).length ≤ text.length := by
  induction text generalizing pre with
  | nil => simp [substPositions]
  | cons a text ih =>
    have := ih (pre ++ [a])
    simp only [substPositions, List.length_append, List.length_cons]
    split <;> simp <;> omega

/-- C75: whatever a modifier reports, the numbers are at most the number of bytes of its input (so none
can overflow), `from` is a piece of the input with the reported lengths, at most one character stands
in its place, and there are at most as many positions as characters.  Except for the reducer the
reported ranges end inside the text. -/
theorem C75_bounds (σ : Oracle) (k : ModifierKind) (input : Str) (r : ModifiedRecord)
    (h : k.modifyWithPositions σ input = .ok r) :
    r.positions.length ≤ input.length ∧
    ∀ p ∈ r.positions, p.index ≤ strLen input ∧ p.length ≤ strLen input ∧ p.utf8Index ≤ strLen input ∧
      p.utf8Length ≤ input.length ∧ p.from ≠ [] ∧ p.from <:+: input ∧ p.length = strLen p.from ∧
      p.utf8Length = p.from.length ∧ p.to.length ≤ 1 ∧
      ((∃ x, k = .consecutiveCharacterReducer x) ∨
        p.index + p.length ≤ strLen input ∧ p.utf8Index + p.utf8Length ≤ strLen input) := by
  cases k with
  | characterConverter x =>
    obtain ⟨ps, h1, h2⟩ := modifyWithPositions_eq x σ input
    rw [ModifierKind.modifyWithPositions, h1] at h
    cases h
    rw [occPos_substPositions] at h2
    refine ⟨by rw [h2.length_eq]; exact substPositions_length .., fun p hp => ?_⟩
    obtain ⟨u, c, d, v, rfl, -, rfl⟩ := (mem_substPositions ..).1 (h2.mem_iff.1 hp)
    have h3 := length_le_strLen u
    have h4 := Char.utf8Size_pos c
    simp only [substPosition, List.nil_append, strLen_append, strLen_cons, List.length_append,
      List.length_cons]
    refine ⟨by omega, by omega, by omega, by omega, by simp, ⟨u, v, by simp⟩, by simp [strLen], by simp,
      by simp, .inr ⟨by omega, by omega⟩⟩
  | trim =>
    obtain ⟨a, b, h1, h2⟩ := trimPos_eq input
    rw [ModifierKind.modifyWithPositions, h2] at h
    cases h
    generalize trimModify input = o at h1
    subst h1
    have h3 := length_le_strLen o
    simp only [strLen_append, strLen_space, List.length_append, List.length_replicate]
    constructor
    · split <;> split <;> simp <;> omega
    · intro p hp
      rcases List.mem_append.1 hp with hp | hp
      · split at hp
        · simp at hp
        · rw [List.mem_singleton.1 hp]
          refine ⟨by simp, by simp only; omega, by simp, by simp only; omega, by simpa,
            ⟨[], o ++ List.replicate b ' ', by simp⟩, by simp [strLen_space], by simp, by simp,
            .inr ⟨by simp only; omega, by simp only; omega⟩⟩
      · split at hp
        · simp at hp
        · rw [List.mem_singleton.1 hp]
          refine ⟨by simp only; omega, by simp only; omega, by simp only; omega, by simp only; omega, by simpa,
            ⟨List.replicate a ' ' ++ o, [], by simp⟩, by simp [strLen_space], by simp, by simp,
            .inr ⟨by simp only; omega, by simp only; omega⟩⟩
  | consecutiveCharacterReducer x =>
    obtain ⟨s0, segs, rfl, h0, hok⟩ := exists_runs x.c input
    rw [ModifierKind.modifyWithPositions, reducer_positions x s0 segs h0 hok] at h
    cases h
    obtain ⟨h1, h2⟩ := reducerPositions_bounds x.c (strLen (s0 ++ runsText x.c segs)) segs s0
      (by rw [strLen_append]; exact Nat.le_refl _) hok
    refine ⟨by rw [List.length_append]; exact Nat.le_trans h1 (Nat.le_add_left ..), fun p hp => ?_⟩
    obtain ⟨h3, h4, h5, h6, h7, h8, h9, h10⟩ := h2 p hp
    have hne : p.from ≠ [] := reducerPositions_ne hok p hp
    exact ⟨h3, h4, h5, by rw [h9]; exact h7.length_le, hne, h7, h8, h9, by simp [h10], .inl ⟨x, rfl⟩⟩
  | characterEliminator x => cases h; exact ⟨Nat.zero_le _, fun p hp => by cases hp⟩
  | dottedSpaceEliminator => cases h; exact ⟨Nat.zero_le _, fun p hp => by cases hp⟩
  | ligatureTranslator x => cases h; exact ⟨Nat.zero_le _, fun p hp => by cases hp⟩
  | neologdn x =>
    have h0 := C26_never_reported.1 σ input r _ (.inr (.inr (.inr ⟨x, rfl⟩))) h
    rw [h0]
    exact ⟨Nat.zero_le _, fun p hp => by cases hp⟩

/-- The bounds are reached: trimming `"  "` reports the length 2, which is all of the text. -/
example : ∃ r, ModifierKind.trim.modifyWithPositions .insertion (c! "  ") = .ok r ∧
    r.positions = [⟨c! "  ", [], 0, 2, 0, 2⟩] := ⟨_, rfl, by decide⟩

/-- C75: the reducer's ranges may end behind the text: they always do if the text consists of the
character alone; and its character index may be greater than the number of characters. -/
theorem C75_reducer_past_end (σ : Oracle) (c : Char) (n : Nat) (hn : 0 < n) :
    ∃ r p, (ModifierKind.consecutiveCharacterReducer ⟨c⟩).modifyWithPositions σ (List.replicate n c) = .ok r ∧
      r.positions = [p] ∧ p.index + p.length = strLen (List.replicate n c) + c.utf8Size ∧
      p.utf8Index = strLen (List.replicate n c) - n := by
  have h := C25_reducer_positions_partial σ c [] [(n, [])] (by simp) ⟨hn, by simp⟩
  have e : [] ++ runsText c [(n, [])] = List.replicate n c := by simp [runsText]
  rw [e] at h
  refine ⟨_, _, h, rfl, ?_, ?_⟩
  · simp [squeeze, strLen]; omega
  · simp

example : ∃ r, (ModifierKind.consecutiveCharacterReducer ⟨'ー'⟩).modifyWithPositions .insertion (c! "ーー") =
    .ok r ∧ r.positions = [⟨c! "ーー", c! "ー", 3, 6, 4, 2⟩] := ⟨_, rfl, by decide⟩

end Chanoma
