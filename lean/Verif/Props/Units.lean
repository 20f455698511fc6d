import Verif.Props.Reported
/-! # C27: which modifiers report in uniform units, and on which texts -/

namespace Chanoma

/-- C27, exactly: everything a modifier ever reports is in uniform units if and only if it is a trim, one
of the modifiers that never report, or a converter with an empty table. -/
theorem C27_which_modifiers (k : ModifierKind) :
    (∀ σ input r, k.modifyWithPositions σ input = .ok r → ∀ p ∈ r.positions, Locates input p) ↔
      ¬ (∃ x, k = .consecutiveCharacterReducer x) ∧
      ∀ x, k = .characterConverter x → ∀ ch, x.itemsMap.get? ch = none := by
  have never := C26_never_reported.1
  cases k with
  | characterConverter x =>
    simp only [ModifierKind.characterConverter.injEq, reduceCtorEq, exists_false, not_false_iff, true_and,
      forall_eq']
    constructor
    · intro h ch
      cases e : x.itemsMap.get? ch with
      | none => rfl
      | some d =>
        exfalso
        obtain ⟨ps, h1, h2⟩ := modifyWithPositions_eq x .insertion ['あ', ch]
        rw [occPos_substPositions] at h2
        have hm : substPosition ['あ'] ch d ∈ ps := h2.mem_iff.2 ((mem_substPositions _ _ _ _).2
          ⟨['あ'], ch, d, [], rfl, e, rfl⟩)
        have := ((substPosition_units ['あ'] [] ch d).1).1 (h .insertion ['あ', ch] _ h1 _ hm) 'あ' (by simp)
        revert this; decide
    · intro h σ input r hr p hp
      obtain ⟨ps, h1, h2⟩ := modifyWithPositions_eq x σ input
      rw [ModifierKind.modifyWithPositions, h1] at hr
      cases hr
      rw [occPos_substPositions] at h2
      obtain ⟨a, c, d, b, -, hc, -⟩ := (mem_substPositions _ _ _ _).1 (h2.mem_iff.1 hp)
      rw [h c] at hc; cases hc
  | consecutiveCharacterReducer x =>
    simp only [ModifierKind.consecutiveCharacterReducer.injEq, exists_eq', not_true, false_and, iff_false]
    intro h
    obtain ⟨y, hy⟩ : ∃ y : Char, x.c ≠ y := by
      by_cases e : x.c = 'x'
      · exact ⟨'y', by rw [e]; decide⟩
      · exact ⟨'x', e⟩
    have hr := reducer_positions x [] [(1, [y])] (by simp) ⟨Nat.one_pos, by simpa using hy⟩
    have hl := h .insertion ([] ++ runsText x.c [(1, [y])]) _
      (by rw [ModifierKind.modifyWithPositions]; exact hr) _ (List.Mem.head _)
    obtain ⟨pre, post, e1, e2, -, e4, -⟩ := hl
    simp only [runsText, List.flatMap_cons, List.flatMap_nil, List.append_nil, List.nil_append, squeeze] at e1 e2 e4
    have hz := Char.utf8Size_pos x.c
    simp only [if_neg (List.cons_ne_nil y []), List.length_nil] at e4
    have e5 := congrArg List.length e1
    simp only [List.length_append, List.length_replicate, List.length_cons, List.length_nil] at e5
    have hpost : post = [] := List.length_eq_zero_iff.1 (by omega)
    subst hpost
    match pre, e4 with
    | [z], _ =>
      simp at e1
      exact hy e1.2.symm
  | trim =>
    simp only [reduceCtorEq, exists_false, not_false_iff, true_and, false_imp_iff, implies_true, iff_true]
    intro σ input r hr p hp
    obtain ⟨r', h1, -, h2, -⟩ := C24_trim_positions σ input
    rw [h1] at hr; cases hr
    exact (h2 p hp).1
  | characterEliminator x =>
    simp only [reduceCtorEq, exists_false, not_false_iff, true_and, false_imp_iff, implies_true, iff_true]
    intro σ input r hr p hp
    rw [never σ input r _ (.inl ⟨_, rfl⟩) hr] at hp; cases hp
  | dottedSpaceEliminator =>
    simp only [reduceCtorEq, exists_false, not_false_iff, true_and, false_imp_iff, implies_true, iff_true]
    intro σ input r hr p hp
    rw [never σ input r _ (.inr (.inl rfl)) hr] at hp; cases hp
  | ligatureTranslator x =>
    simp only [reduceCtorEq, exists_false, not_false_iff, true_and, false_imp_iff, implies_true, iff_true]
    intro σ input r hr p hp
    rw [never σ input r _ (.inr (.inr (.inl ⟨_, rfl⟩))) hr] at hp; cases hp
  | neologdn x =>
    simp only [reduceCtorEq, exists_false, not_false_iff, true_and, false_imp_iff, implies_true, iff_true]
    intro σ input r hr p hp
    rw [never σ input r _ (.inr (.inr (.inr ⟨_, rfl⟩))) hr] at hp; cases hp

/-- C27, on which texts: whatever a modifier other than the reducer reports about a text of characters of
one byte is in uniform units. -/
theorem C27_ascii_texts (σ : Oracle) (k : ModifierKind) (hk : ∀ x, k ≠ .consecutiveCharacterReducer x)
    (input : Str) (ha : ∀ ch ∈ input, ch.utf8Size = 1) (r : ModifiedRecord)
    (h : k.modifyWithPositions σ input = .ok r) (p : Position) (hp : p ∈ r.positions) : Locates input p := by
  by_cases hx : ∃ x, k = .characterConverter x
  · obtain ⟨x, rfl⟩ := hx
    obtain ⟨ps, h1, h2⟩ := modifyWithPositions_eq x σ input
    rw [ModifierKind.modifyWithPositions, h1] at h
    cases h
    rw [occPos_substPositions] at h2
    obtain ⟨a, c, d, b, rfl, -, rfl⟩ := (mem_substPositions _ _ _ _).1 (h2.mem_iff.1 hp)
    exact ((substPosition_units a b c d).1).2 fun x hx => ha x (by simp [hx])
  · exact (C27_which_modifiers k).2 ⟨fun ⟨x, e⟩ => hk x e, fun x e => absurd ⟨x, e⟩ hx⟩ σ input r h p hp

example : ∃ r p, (ModifierKind.characterConverter ⟨[('a', 'b')]⟩).modifyWithPositions .insertion (c! "xa") = .ok r ∧
    p ∈ r.positions ∧ ∀ ch ∈ c! "xa", ch.utf8Size = 1 :=
  ⟨⟨.characterConverter ⟨[('a', 'b')]⟩, c! "xb", [⟨['a'], ['b'], 1, 1, 1, 1⟩]⟩, _, by decide +kernel,
    .head _, by decide⟩

end Chanoma
