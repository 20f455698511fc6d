import Verif.Props.Positions
/-! # C52: equality and order of positions -/

namespace Chanoma

/-- C52: `==` on positions is an equivalence, `cmp` a total order up to `==`, and both only look at
`index`. -/
theorem C52_lawful (a b c : Position) :
    (a.eq b = true ↔ a.index = b.index) ∧ (a.cmp b = .eq ↔ a.eq b = true) ∧
    (a.cmp b = .lt ↔ a.index < b.index) ∧ (b.cmp a = (a.cmp b).swap) ∧
    (a.cmp b ≠ .gt → b.cmp c ≠ .gt → a.cmp c ≠ .gt) ∧ a.eq a = true ∧ a.eq b = b.eq a ∧
    (a.eq b = true → b.eq c = true → a.eq c = true) := by
  simp only [Position.eq, Position.cmp, beq_iff_eq, Nat.compare_eq_eq, Nat.compare_eq_lt, ne_eq,
    Nat.compare_eq_gt, Nat.compare_swap, true_and]
  exact ⟨by omega, Bool.beq_comm, by omega⟩

/-- C52: `==` does not look at the texts: two different positions may be equal. -/
theorem C52_ignores_texts (a : Position) (f t : Str) (l i j : Nat) :
    a.eq ⟨f, t, a.index, l, i, j⟩ = true := by simp [Position.eq]

theorem reducerPositions_index (c : Char) (total : Nat) (segs : List (Nat × Str)) :
    ∀ pre : Str, pre.getLast? ≠ some c → RunsOk c segs →
      (∀ p ∈ reducerPositions c total pre segs, strLen (squeeze c pre) < p.index) ∧
      (reducerPositions c total pre segs).Pairwise (fun p q => p.index < q.index) := by
  induction segs with
  | nil => intro pre _ _; simp [reducerPositions]
  | cons s rest ih =>
    intro pre hpre hok
    have hsz := Char.utf8Size_pos c
    have hk : 0 < s.1 ∧ c ∉ s.2 := by
      cases rest with
      | nil => exact hok
      | cons => exact ⟨hok.1, hok.2.1⟩
    cases rest with
    | nil => simp [reducerPositions, hsz]
    | cons s' rest =>
      obtain ⟨-, -, hne, hrest⟩ := hok
      have hlast := getLast?_not_mem (pre := pre ++ List.replicate s.1 c) hk.2 hne
      obtain ⟨h1, h2⟩ := ih _ hlast hrest
      have hlen : strLen (squeeze c (pre ++ List.replicate s.1 c ++ s.2)) =
          strLen (squeeze c pre) + c.utf8Size + strLen s.2 := by
        rw [squeeze_not_mem' hk.2, squeeze_run hpre hk.1]
        simp [strLen]
        omega
      rw [reducerPositions]
      constructor
      · intro p hp
        rcases List.mem_cons.mp hp with rfl | hp
        · simp [hsz]
        · have := h1 p hp
          omega
      · refine List.pairwise_cons.mpr ⟨fun q hq => ?_, h2⟩
        have := h1 q hq
        simp only
        omega

/-- The positions of a record in an order that does not depend on the hash seed. -/
theorem positions_perm_ascending (k : ModifierKind) (input : Str) :
    ∃ ps : List Position, ps.Pairwise (fun p q => p.index < q.index) ∧
      ∀ σ r, k.modifyWithPositions σ input = .ok r → r.positions.Perm ps := by
  cases k with
  | characterConverter x =>
    refine ⟨_, substPositions_index x.itemsMap.get? [] input, fun σ r h => ?_⟩
    obtain ⟨ps, h1, h2⟩ := modifyWithPositions_eq x σ input
    rw [ModifierKind.modifyWithPositions, h1] at h
    cases h
    rwa [occPos_substPositions] at h2
  | consecutiveCharacterReducer x =>
    obtain ⟨s0, segs, rfl, h0, hok⟩ := exists_runs x.c input
    refine ⟨_, (reducerPositions_index x.c (strLen (s0 ++ runsText x.c segs)) segs s0
      (fun h => h0 (List.mem_of_getLast? h)) hok).2, fun σ r h => ?_⟩
    rw [ModifierKind.modifyWithPositions, reducer_positions x s0 segs h0 hok] at h
    cases h
    exact .refl _
  | trim =>
    obtain ⟨a, b, h1, h2⟩ := trimPos_eq input
    refine ⟨_, ?_, fun σ r h => by
      rw [ModifierKind.modifyWithPositions, h2] at h
      cases h
      exact .refl _⟩
    have h3 : strLen input = a + strLen (trimModify input) + b := by
      conv => lhs; rw [h1]
      rw [strLen_append, strLen_append, strLen_space, strLen_space]
    split <;> split <;> simp
    omega
  | characterEliminator x =>
    exact ⟨[], .nil, fun σ r h => by rw [C26_never_reported.1 σ input r _ (.inl ⟨x, rfl⟩) h]⟩
  | dottedSpaceEliminator =>
    exact ⟨[], .nil, fun σ r h => by rw [C26_never_reported.1 σ input r _ (.inr (.inl rfl)) h]⟩
  | ligatureTranslator x =>
    exact ⟨[], .nil, fun σ r h => by
      rw [C26_never_reported.1 σ input r _ (.inr (.inr (.inl ⟨x, rfl⟩))) h]⟩
  | neologdn x =>
    exact ⟨[], .nil, fun σ r h => by
      rw [C26_never_reported.1 σ input r _ (.inr (.inr (.inr ⟨x, rfl⟩))) h]⟩

/-- C52: no two positions of one record are equal under `==`. -/
theorem C52_distinct (k : ModifierKind) (σ : Oracle) (input : Str) (r : ModifiedRecord)
    (h : k.modifyWithPositions σ input = .ok r) :
    r.positions.Pairwise (fun p q => p.eq q = false) := by
  obtain ⟨ps, h1, h2⟩ := positions_perm_ascending k input
  refine ((h2 σ r h).pairwise_iff (fun {a b} h => by rw [← h]; exact (C52_lawful b a a).2.2.2.2.2.2.1)).mpr
    (h1.imp fun {p q} hpq => ?_)
  simp [Position.eq]
  omega

theorem index_inj {ps : List Position} (h : ps.Pairwise (fun p q => p.index < q.index))
    {a b : Position} (ha : a ∈ ps) (hb : b ∈ ps) (e : a.index = b.index) : a = b := by
  induction ps with
  | nil => cases ha
  | cons p ps ih =>
    rw [List.pairwise_cons] at h
    rcases List.mem_cons.mp ha with h1 | h1 <;> rcases List.mem_cons.mp hb with h2 | h2
    · rw [h1, h2]
    · have := h.1 b h2; rw [h1] at e; omega
    · have := h.1 a h1; rw [h2] at e; omega
    · exact ih h.2 h1 h2

/-- C52: whatever the hash seeds, sorting the positions of a record of the same text gives the same
list. -/
theorem C52_sorted_unique (k : ModifierKind) (σ τ : Oracle) (input : Str) (r r' : ModifiedRecord)
    (h : k.modifyWithPositions σ input = .ok r) (h' : k.modifyWithPositions τ input = .ok r')
    (l l' : List Position) (hl : l.Perm r.positions) (hl' : l'.Perm r'.positions)
    (hs : l.Pairwise (fun p q => p.cmp q ≠ .gt)) (hs' : l'.Pairwise (fun p q => p.cmp q ≠ .gt)) :
    l = l' := by
  obtain ⟨ps, h1, h2⟩ := positions_perm_ascending k input
  have key : ∀ l : List Position, l.Perm ps → l.Pairwise (fun p q => p.cmp q ≠ .gt) → l = ps := by
    intro l hp hs
    refine hp.eq_of_pairwise (le := fun p q => p.index ≤ q.index) (fun a b ha hb hab hba => ?_)
      (hs.imp fun {p q} h => ?_) (h1.imp fun {p q} h => Nat.le_of_lt h)
    · have hinj : ∀ a ∈ ps, ∀ b ∈ ps, a.index = b.index → a = b := by
        intro a ha b hb e
        exact index_inj h1 ha hb e
      exact hinj a (hp.mem_iff.mp ha) b hb (by omega)
    · simp only [Position.cmp, ne_eq, Nat.compare_eq_gt] at h
      omega
  rw [key l (hl.trans (h2 σ r h)) hs, key l' (hl'.trans (h2 τ r' h')) hs']

/-- Under two hash orders the positions are listed differently but sort to the same list. -/
example : ∃ r r', (ModifierKind.characterConverter ⟨[('a', 'b'), ('c', 'd')]⟩).modifyWithPositions
      .insertion (c! "ac") = .ok r ∧
    (ModifierKind.characterConverter ⟨[('a', 'b'), ('c', 'd')]⟩).modifyWithPositions
      .reversed (c! "ac") = .ok r' ∧ r.positions ≠ r'.positions ∧
    r.positions.Pairwise (fun p q => p.cmp q ≠ .gt) ∧
    r'.positions.reverse.Pairwise (fun p q => p.cmp q ≠ .gt) :=
  ⟨_, _, rfl, rfl, by decide +kernel, by decide +kernel, by decide +kernel⟩

end Chanoma
