import Verif.Proofs.Positions
import Verif.Props.Conversion
/-! # C24, C25, C26, C27: positions of trim and reducer, coverage, units -/

namespace Chanoma

/-! ## C24 -/

/-- C24: trim reports one position per non-empty trimmed end and no other; each locates its
spaces in the input both in bytes and in characters, and the output is the rest. -/
theorem C24_trim_positions (σ : Oracle) (input : Str) :
    ∃ r, ModifierKind.trim.modifyWithPositions σ input = .ok r ∧
      ModifierKind.trim.modify σ input = .ok r.text ∧
      (∀ p ∈ r.positions, Locates input p ∧ p.to = [] ∧ p.from ≠ [] ∧ ∀ c ∈ p.from, c = ' ') ∧
      r.positions.length ≤ 2 ∧
      ((r.positions = [] ∧ input = r.text) ∨
        (∃ p, r.positions = [p] ∧ (input = p.from ++ r.text ∧ p.index = 0 ∨ input = r.text ++ p.from)) ∨
        (∃ p q, r.positions = [p, q] ∧ input = p.from ++ r.text ++ q.from ∧ p.index = 0)) := by
  obtain ⟨a, b, h1, h2⟩ := trimPos_eq input
  refine ⟨_, h2, rfl, ?_, ?_, ?_⟩
  · intro p hp
    simp only [List.mem_append] at hp
    rcases hp with hp | hp
    · split at hp
      · simp at hp
      · rename_i ha
        simp only [List.mem_singleton] at hp
        subst hp
        refine ⟨⟨[], trimModify input ++ List.replicate b ' ', ?_, rfl, (strLen_space a).symm, rfl,
          by simp⟩, rfl, by simpa using ha, by simp⟩
        simpa using h1
    · split at hp
      · simp at hp
      · rename_i hb
        simp only [List.mem_singleton] at hp
        subst hp
        have l1 := congrArg strLen h1
        have l2 := congrArg List.length h1
        simp only [strLen_append, strLen_space] at l1
        simp only [List.length_append, List.length_replicate] at l2
        refine ⟨⟨List.replicate a ' ' ++ trimModify input, [], ?_, ?_, (strLen_space b).symm, ?_,
          by simp⟩, rfl, by simpa using hb, by simp⟩
        · simpa using h1
        · simp only [strLen_append, strLen_space]; omega
        · simp only [List.length_append, List.length_replicate]; omega
  · simp only [List.length_append]; split <;> split <;> simp
  · by_cases ha : a = 0 <;> by_cases hb : b = 0
    · left; refine ⟨by simp [ha, hb], ?_⟩; simpa [ha, hb] using h1
    · right; left
      refine ⟨_, by simp only [ha, hb, if_true, if_false, List.nil_append]; rfl, .inr ?_⟩
      simpa [ha] using h1
    · right; left
      refine ⟨_, by simp only [ha, hb, if_true, if_false, List.append_nil]; rfl, .inl ⟨?_, rfl⟩⟩
      simpa [hb] using h1
    · right; right
      exact ⟨_, _, by simp only [ha, hb, if_false]; rfl, h1, rfl⟩

example : ModifierKind.trim.modifyWithPositions .insertion (c! "  あい ") =
    .ok ⟨.trim, c! "あい", [⟨c! "  ", [], 0, 2, 0, 2⟩, ⟨c! " ", [], 8, 1, 4, 1⟩]⟩ := by
  decide +kernel

/-! ## C25 -/

/-- C25 (partial): for a text decomposed into its maximal runs of `c`, the reducer reports one
position per run, in order, with `from` the run, `to` the single character, and the run's length
in bytes and in characters.  What is missing is the location: `index` and `utf8_index` are the
values in `reducerPositions`, which do not locate the run (`C25_not_located`). -/
theorem C25_reducer_positions_partial (σ : Oracle) (c : Char) (s0 : Str) (segs : List (Nat × Str))
    (h0 : c ∉ s0) (hok : RunsOk c segs) :
    (ModifierKind.consecutiveCharacterReducer ⟨c⟩).modifyWithPositions σ (s0 ++ runsText c segs) =
      .ok ⟨.consecutiveCharacterReducer ⟨c⟩, squeeze c (s0 ++ runsText c segs),
        reducerPositions c (strLen (s0 ++ runsText c segs)) s0 segs⟩ :=
  reducer_positions ⟨c⟩ s0 segs h0 hok

/-- C25: every text has such a decomposition. -/
theorem C25_runs_exist (c : Char) (text : Str) :
    ∃ s0 segs, text = s0 ++ runsText c segs ∧ c ∉ s0 ∧ RunsOk c segs := exists_runs c text

/-- C25: the reported lengths, counts and pieces are those of the runs. -/
theorem C25_reported_runs (c : Char) (total : Nat) (pre : Str) (segs : List (Nat × Str)) :
    (reducerPositions c total pre segs).map (fun p => (p.from, p.to, p.length, p.utf8Length)) =
      segs.map (fun s => (List.replicate s.1 c, [c], strLen (List.replicate s.1 c), s.1)) := by
  induction segs generalizing pre with
  | nil => rfl
  | cons s rest ih => simp [reducerPositions, ih, strLen_replicate]

/-- C25 refuted: for `"aab"` the reported position of the run `aa` is not where it is. -/
theorem C25_not_located :
    ∃ r, (ModifierKind.consecutiveCharacterReducer ⟨'a'⟩).modifyWithPositions .insertion (c! "aab") =
        .ok r ∧ ∃ p ∈ r.positions, ¬ Locates (c! "aab") p := by
  refine ⟨⟨.consecutiveCharacterReducer ⟨'a'⟩, c! "ab", [⟨c! "aa", c! "a", 1, 2, 2, 2⟩]⟩,
    by decide +kernel, _, List.mem_singleton.mpr rfl, ?_⟩
  rintro ⟨pre, post, h, h1, -, h2, -⟩
  have h3 : pre.length = 2 := h2.symm
  have h4 := length_le_strLen pre
  simp only at h1
  omega

/-- C25, exactly when a reported position is where the run is: only that of a run at the end of an
ASCII text in which the earlier runs lost exactly one character. -/
theorem C25_located_exactly (σ : Oracle) (c : Char) (s0 : Str) (l : List (Nat × Str)) (s : Nat × Str)
    (rest : List (Nat × Str)) (h0 : c ∉ s0) (hok : RunsOk c (l ++ s :: rest)) (r : ModifiedRecord)
    (h : (ModifierKind.consecutiveCharacterReducer ⟨c⟩).modifyWithPositions σ
      (s0 ++ runsText c (l ++ s :: rest)) = .ok r) :
    ∃ p, r.positions[l.length]? = some p ∧
      (p.index = strLen (s0 ++ runsText c l) ∧ p.utf8Index = (s0 ++ runsText c l).length ↔
        s.2 = [] ∧ (∀ x ∈ s0 ++ runsText c (l ++ s :: rest), x.utf8Size = 1) ∧
          (s0 ++ runsText c l).length = (squeeze c (s0 ++ runsText c l)).length + 1) := by
  rw [C25_reducer_positions_partial σ c s0 _ h0 hok] at h
  cases h
  refine ⟨_, reducerPositions_get .., ?_⟩
  simp only
  have hd := hok.drop
  by_cases hs : s.2 = []
  · have hr : rest = [] := by
      cases rest with
      | nil => rfl
      | cons a rest => exact absurd hs hd.2.2.1
    subst hr
    have hn : 0 < s.1 := hd.1
    have e : s0 ++ runsText c (l ++ [s]) = (s0 ++ runsText c l) ++ List.replicate s.1 c := by
      simp [runsText, hs]
    rw [e, if_pos hs]
    generalize s0 ++ runsText c l = pre
    have hq : strLen (pre ++ List.replicate s.1 c) = strLen pre + s.1 * c.utf8Size := by
      rw [strLen_append, strLen_replicate]
    have hle := length_le_strLen pre
    have hle' := length_le_strLen (squeeze c pre)
    have hc := Char.utf8Size_pos c
    have hmul : s.1 ≤ s.1 * c.utf8Size := Nat.le_mul_of_pos_right _ hc
    rw [hq]
    constructor
    · rintro ⟨h1, h2⟩
      have h3 : strLen pre = pre.length ∧ s.1 * c.utf8Size = s.1 := by omega
      have h4 : c.utf8Size = 1 := by
        have := h3.2
        exact Nat.eq_of_mul_eq_mul_left hn (by omega)
      have h5 := (strLen_ascii pre).mp h3.1
      have h6 : strLen (squeeze c pre) = (squeeze c pre).length :=
        (strLen_ascii _).mpr fun x hx => h5 x (squeeze_mem hx)
      refine ⟨hs, ?_, by omega⟩
      intro x hx
      rcases List.mem_append.mp hx with hx | hx
      · exact h5 x hx
      · rw [List.eq_of_mem_replicate hx, h4]
    · rintro ⟨-, h1, h2⟩
      have h3 := (strLen_ascii pre).mpr fun x hx => h1 x (List.mem_append_left _ hx)
      have h4 : c.utf8Size = 1 := h1 c (List.mem_append_right _ (by simp; omega))
      have h6 : strLen (squeeze c pre) = (squeeze c pre).length :=
        (strLen_ascii _).mpr fun x hx => h1 x (List.mem_append_left _ (squeeze_mem hx))
      rw [h4]
      omega
  · have hn : 0 < s.1 := by
      cases rest with
      | nil => exact hd.1
      | cons => exact hd.1
    rw [if_neg hs]
    constructor
    · rintro ⟨-, h2⟩; omega
    · rintro ⟨h2, -⟩; exact absurd h2 hs

/-- In `"aaba"` the run at the end is located. -/
example : c! "aaba" = [] ++ runsText 'a' ([(2, c! "b")] ++ (1, []) :: []) ∧
    RunsOk 'a' ([(2, c! "b")] ++ (1, []) :: []) ∧
    (ModifierKind.consecutiveCharacterReducer ⟨'a'⟩).modifyWithPositions .insertion (c! "aaba") =
      .ok ⟨.consecutiveCharacterReducer ⟨'a'⟩, c! "aba",
        [⟨c! "aa", c! "a", 1, 2, 2, 2⟩, ⟨c! "a", c! "a", 3, 1, 3, 1⟩]⟩ :=
  ⟨rfl, by simp [RunsOk], by decide +kernel⟩

/-- The decomposition of `"スーーパー"`. -/
example : c! "スーーパー" = c! "ス" ++ runsText 'ー' [(2, c! "パ"), (1, [])] ∧ 'ー' ∉ c! "ス" ∧
    RunsOk 'ー' [(2, c! "パ"), (1, [])] := by
  refine ⟨rfl, by decide, by decide, by decide, by decide, by decide, by decide⟩

example : (ModifierKind.consecutiveCharacterReducer ⟨'ー'⟩).modifyWithPositions .insertion (c! "スーーパー") =
    .ok ⟨.consecutiveCharacterReducer ⟨'ー'⟩, c! "スーパー",
      [⟨c! "ーー", c! "ー", 6, 6, 3, 2⟩, ⟨c! "ー", c! "ー", 12, 3, 14, 1⟩]⟩ := by decide +kernel

/-! ## C26 -/

theorem covers_subst (f : Char → Option Char) (pre text : Str) :
    Covers text (substitute f text) ((substPositions f pre text).map fun p => (p.from, p.to)) := by
  induction text generalizing pre with
  | nil => exact .nil
  | cons c text ih =>
    simp only [substPositions, substitute, List.map_cons]
    cases hf : f c with
    | none => exact .keep c (ih _)
    | some d => exact .edit [c] [d] (ih _)

/-- C26 (partial): the positions reported by the converter, by trim and by the reducer cover every
change: the output is the input with the reported pieces replaced, and everything else is the same.
In particular, a change comes with a position.
Missing: the other modifiers (`C26_never_reported`). -/
theorem C26_covered_partial (σ : Oracle) (input : Str) (k : ModifierKind) (r : ModifiedRecord)
    (hk : (∃ x, k = .characterConverter x) ∨ k = .trim ∨ ∃ x, k = .consecutiveCharacterReducer x)
    (h : k.modifyWithPositions σ input = .ok r) :
    (∃ ps : List Position, ps.Perm r.positions ∧ Covers input r.text (ps.map fun p => (p.from, p.to))) ∧
    (r.text ≠ input → r.positions ≠ []) := by
  suffices hs : ∃ ps : List Position, ps.Perm r.positions ∧ Covers input r.text (ps.map fun p => (p.from, p.to)) by
    refine ⟨hs, fun hne hp => ?_⟩
    obtain ⟨ps, h1, h2⟩ := hs
    rw [hp] at h1
    rw [h1.eq_nil] at h2
    exact hne h2.eq_of_nil.symm
  rcases hk with ⟨x, rfl⟩ | rfl | ⟨x, rfl⟩
  · obtain ⟨ps, h1, h2⟩ := modifyWithPositions_eq x σ input
    rw [ModifierKind.modifyWithPositions, h1] at h
    cases h
    rw [occPos_substPositions] at h2
    exact ⟨_, h2.symm, covers_subst _ _ _⟩
  · obtain ⟨a, b, h1, h2⟩ := trimPos_eq input
    rw [ModifierKind.modifyWithPositions, h2] at h
    cases h
    refine ⟨_, .refl _, ?_⟩
    simp only
    have hb : Covers (trimModify input ++ List.replicate b ' ') (trimModify input)
        ((if b = 0 then [] else [(⟨List.replicate b ' ', [], strLen input - b, b, input.length - b, b⟩ :
          Position)]).map fun p => (p.from, p.to)) := by
      have := Covers.prepend (t := trimModify input) (a := List.replicate b ' ') (b := [])
        (l := (if b = 0 then [] else [(⟨List.replicate b ' ', [], strLen input - b, b, input.length - b, b⟩ :
          Position)]).map fun p => (p.from, p.to)) (by
          split
          · rename_i hb; subst hb; exact .nil
          · have := Covers.edit (List.replicate b ' ') [] .nil
            simpa using this)
      rwa [List.append_nil] at this
    generalize hl : (if b = 0 then [] else [(⟨List.replicate b ' ', [], strLen input - b, b, input.length - b, b⟩ :
          Position)]) = l at hb
    generalize trimModify input = o at h1 hb
    subst h1
    split
    · rename_i ha; subst ha; simpa using hb
    · have := Covers.edit (List.replicate a ' ') [] hb
      simpa using this
  · obtain ⟨s0, segs, rfl, h0, hok⟩ := exists_runs x.c input
    rw [ModifierKind.modifyWithPositions, reducer_positions x s0 segs h0 hok] at h
    cases h
    refine ⟨_, .refl _, ?_⟩
    obtain ⟨o, h1, h2⟩ := covers_runs (strLen (s0 ++ runsText x.c segs)) hok (pre := s0)
      (fun _ hl => h0 (List.mem_of_getLast? hl))
    simp only
    rw [h1, squeeze_not_mem h0]
    exact h2.prepend s0

/-- The changes of `"  あ "` by trim, and of `"ｱaｲ"` by a table. -/
example : Covers (c! "  あ ") (c! "あ") [(c! "  ", []), (c! " ", [])] ∧
    Covers (c! "ｱaｲ") (c! "アaイ") [(c! "ｱ", c! "ア"), (c! "ｲ", c! "イ")] :=
  ⟨.edit (c! "  ") [] (.keep 'あ' (.edit (c! " ") [] .nil)),
   .edit (c! "ｱ") (c! "ア") (.keep 'a' (.edit (c! "ｲ") (c! "イ") .nil))⟩

/-- C26 refuted: the other four modifiers never report any position, though they change texts. -/
theorem C26_never_reported :
    (∀ σ input r, ∀ k : ModifierKind, (∃ x, k = .characterEliminator x) ∨ k = .dottedSpaceEliminator ∨
        (∃ x, k = .ligatureTranslator x) ∨ (∃ x, k = .neologdn x) →
      k.modifyWithPositions σ input = .ok r → r.positions = []) ∧
    (∃ r, (ModifierKind.characterEliminator ⟨['a']⟩).modifyWithPositions .insertion (c! "ab") = .ok r ∧
      r.text = c! "b") ∧
    (∃ r, ModifierKind.dottedSpaceEliminator.modifyWithPositions .insertion (c! " b") = .ok r ∧
      r.text = c! "b") ∧
    (∃ r, (ModifierKind.ligatureTranslator ⟨[(c! "㈱", c! "(株)")]⟩).modifyWithPositions .insertion
        (c! "㈱") = .ok r ∧ r.text = c! "(株)") ∧
    (∃ n r, Neologdn.new .insertion = .ok n ∧
      (ModifierKind.neologdn n).modifyWithPositions .insertion (c! "Ａ") = .ok r ∧ r.text = c! "A") := by
  refine ⟨?_, ⟨_, rfl, by decide⟩, ⟨_, rfl, by decide⟩, ⟨_, rfl, by decide⟩, ?_⟩
  · rintro σ input r k (⟨x, rfl⟩ | rfl | ⟨x, rfl⟩ | ⟨x, rfl⟩) h
    · cases h; rfl
    · cases h; rfl
    · cases h; rfl
    · simp only [ModifierKind.modifyWithPositions, Neologdn.modifyWithPositions] at h
      cases hc : x.characterConverter.modifyWithPositions σ input with
      | err e => simp [hc] at h
      | panic => simp [hc] at h
      | ok r1 =>
        rw [hc] at h
        simp only [Outcome.ok_bind] at h
        cases hd : x.consecutive.modifyWithPositions r1.text with
        | err e => simp [hd] at h
        | panic => simp [hd] at h
        | ok r2 =>
          rw [hd] at h
          simp only [Outcome.ok_bind, Outcome.pure_eq, Outcome.ok.injEq] at h
          rw [← h]; rfl
  · have : ∃ n, Neologdn.new .insertion = .ok n ∧
        ∃ r, (ModifierKind.neologdn n).modifyWithPositions .insertion (c! "Ａ") = .ok r ∧ r.text = c! "A" := by
      obtain ⟨x, h1, h2⟩ := fromTables_one_ok _ (neologdn_nonempty .insertion)
      refine ⟨_, by unfold Neologdn.new; rw [h1]; rfl, ?_⟩
      obtain ⟨ps, h3, -⟩ := modifyWithPositions_eq x .insertion (c! "Ａ")
      rw [h2, neologdn_substitute] at h3
      have e : (c! "Ａ").map neologdnFold = c! "A" := by decide
      rw [e] at h3
      simp only [ModifierKind.modifyWithPositions, Neologdn.modifyWithPositions, h3, Outcome.ok_bind]
      have e2 : (⟨'ー'⟩ : ConsecutiveCharacterReducer).modifyWithPositions (c! "A") =
          .ok ⟨.consecutiveCharacterReducer ⟨'ー'⟩, c! "A", []⟩ := by decide +kernel
      rw [e2]
      simp only [Outcome.ok_bind, Outcome.pure_eq, Outcome.ok.injEq]
      refine ⟨_, rfl, ?_⟩
      show ((⟨neologdnLigatures⟩ : LigatureTranslator).modifyWithPositions Oracle.insertion
        ((CharacterEliminator.fromChars tildes).modifyWithPositions
          (dottedModifyWithPositions ['A']).text).text).text = ['A']
      decide +kernel
    obtain ⟨n, h1, r, h2, h3⟩ := this
    exact ⟨n, r, h1, h2, h3⟩

/-! ## C27 -/

theorem substPosition_units (pre post : Str) (c d : Char) :
    (Locates (pre ++ c :: post) (substPosition pre c d) ↔ ∀ x ∈ pre, x.utf8Size = 1) ∧
    Locates (pre ++ c :: post) { substPosition pre c d with
      index := (substPosition pre c d).utf8Index, utf8Index := (substPosition pre c d).index } := by
  refine ⟨?_, ⟨pre, post, by simp [substPosition], rfl, by simp [substPosition, strLen], rfl, rfl⟩⟩
  rw [← strLen_ascii]
  constructor
  · rintro ⟨pre', post', -, h1, -, h2, -⟩
    simp only [substPosition] at h1 h2
    have := length_le_strLen pre
    have := length_le_strLen pre'
    omega
  · intro h
    exact ⟨pre, post, by simp [substPosition], h.symm, by simp [substPosition, strLen], h, rfl⟩

/-- C27 (partial): a position of a table conversion is in uniform units exactly if the text before it
is ASCII; exchanging `index` and `utf8_index` makes every such position uniform.  Trim positions are
uniform by C24.
Missing for the full claim: positions after a character that is not ASCII, for which it is false. -/
theorem C27_converter_units_partial (t : Table) (c : Chanoma) (hc : Chanoma.fromTable t = .ok c)
    (σs : Nat → Oracle) (input : Str) (r : ModifiedRecord) (hr : c.normalizeWithPositions σs input = .ok ⟨[r]⟩)
    (p : Position) (hp : p ∈ r.positions) :
    (Locates input p ↔ ∀ x ∈ input.take p.index, x.utf8Size = 1) ∧
    Locates input { p with index := p.utf8Index, utf8Index := p.index } := by
  have hne : CellsNonEmpty t.items := by
    refine Classical.byContradiction fun hn => ?_
    have := (C02_panics_iff_empty_cell t c).1.1 (by
      simp only [CellsNonEmpty, Classical.not_forall] at hn
      obtain ⟨i, hi, hn⟩ := hn
      refine ⟨i, hi, ?_⟩
      by_cases h1 : i.from = []
      · exact .inl h1
      · exact .inr (Classical.byContradiction fun h2 => hn ⟨h1, h2⟩))
    rw [this] at hc; cases hc
  obtain ⟨c', h1, h2⟩ := C23_converter_positions t hne
  rw [h1] at hc; cases hc
  obtain ⟨r', h3, -, h4, -⟩ := h2 σs input
  rw [h3] at hr; cases hr
  obtain ⟨pre, a, b, post, rfl, -, rfl⟩ := (h4 p).1 hp
  have := substPosition_units pre post a b
  refine ⟨this.1.trans ?_, this.2⟩
  rw [show (pre ++ a :: post).take (substPosition pre a b).index = pre by simp [substPosition]]

/-- A position that is in uniform units and one that is not, in one record. -/
example : ∃ c r p q, Chanoma.fromTable (Table.fromCorr [⟨['ｱ'], ['ア']⟩] .new) = .ok c ∧
    c.normalizeWithPositions (fun _ => .insertion) (c! "aｱｱ") = .ok ⟨[r]⟩ ∧ p ∈ r.positions ∧ q ∈ r.positions ∧
    Locates (c! "aｱｱ") p ∧ ¬ Locates (c! "aｱｱ") q := by
  refine ⟨⟨[.characterConverter ⟨[('ｱ', 'ア')]⟩]⟩, ⟨.characterConverter ⟨[('ｱ', 'ア')]⟩, c! "aアア",
    [substPosition (c! "a") 'ｱ' 'ア', substPosition (c! "aｱ") 'ｱ' 'ア']⟩, substPosition (c! "a") 'ｱ' 'ア',
    substPosition (c! "aｱ") 'ｱ' 'ア', by decide +kernel, by decide +kernel, by simp, by simp,
    (substPosition_units (c! "a") ['ｱ'] 'ｱ' 'ア').1.2 (by decide),
    fun h => absurd ((substPosition_units (c! "aｱ") [] 'ｱ' 'ア').1.1 h) (by decide)⟩

/-- C27 refuted: the converter's position for the second character of `"あｱ"` has a character index
in `index`. -/
theorem C27_not_uniform :
    ∃ r, (ModifierKind.characterConverter ⟨[('ｱ', 'ア')]⟩).modifyWithPositions .insertion (c! "あｱ") =
        .ok r ∧ ∃ p ∈ r.positions, ¬ Locates (c! "あｱ") p := by
  refine ⟨⟨.characterConverter ⟨[('ｱ', 'ア')]⟩, c! "あア", [substPosition (c! "あ") 'ｱ' 'ア']⟩,
    by decide +kernel, _, List.mem_singleton.mpr rfl, ?_⟩
  have := (substPosition_units (c! "あ") [] 'ｱ' 'ア').1
  intro h
  exact absurd (this.mp h) (by decide)

end Chanoma
