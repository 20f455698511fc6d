import Verif.Proofs.Text
import Verif.Spec.Positions
/-! # Lemmas about positions -/

namespace Chanoma

theorem strLen_append (a b : Str) : strLen (a ++ b) = strLen a + strLen b := by simp [strLen]

theorem strLen_cons (c : Char) (t : Str) : strLen (c :: t) = c.utf8Size + strLen t := by
  simp [strLen]

theorem strLen_replicate (k : Nat) (c : Char) : strLen (List.replicate k c) = k * c.utf8Size := by
  induction k with
  | zero => simp [strLen]
  | succ k ih => rw [List.replicate_succ, strLen_cons, ih, Nat.succ_mul]; omega

theorem length_le_strLen (t : Str) : t.length ≤ strLen t := by
  induction t with
  | nil => simp [strLen]
  | cons c t ih =>
    rw [strLen_cons, List.length_cons]
    have := Char.utf8Size_pos c
    omega

theorem strLen_space (k : Nat) : strLen (List.replicate k ' ') = k := by
  rw [strLen_replicate]
  have : (' ' : Char).utf8Size = 1 := by decide
  rw [this, Nat.mul_one]

/-! ## Trim -/

theorem trimPos_lengths (input : Str) : ∃ a b,
    input.length = a + (trimStartMatches ' ' input).length ∧
    (trimStartMatches ' ' input).length = (trimModify input).length + b ∧
    input = List.replicate a ' ' ++ trimModify input ++ List.replicate b ' ' ∧
    trimModifyWithPositions input = .ok ⟨.trim, trimModify input,
      (if a = 0 then [] else [⟨List.replicate a ' ', [], 0, a, 0, a⟩]) ++
      (if b = 0 then [] else [⟨List.replicate b ' ', [], strLen input - b, b, input.length - b, b⟩])⟩ := by
  obtain ⟨a, h1, h2⟩ := trimStart_eq input
  obtain ⟨b, h3, h4⟩ := trimEnd_eq (trimStartMatches ' ' input)
  refine ⟨a, b, ?_, ?_, ?_, ?_⟩
  · conv => lhs; rw [h1]
    simp
  · conv => lhs; rw [h3]
    simp [trimModify, trimMatches]
  · unfold trimModify trimMatches
    rw [List.append_assoc, ← h3]; exact h1
  · have l1 : strLen input = a + strLen (trimStartMatches ' ' input) := by
      conv => lhs; rw [h1]
      rw [strLen_append, strLen_space]
    have l2 : strLen (trimStartMatches ' ' input) =
        strLen (trimEndMatches ' ' (trimStartMatches ' ' input)) + b := by
      conv => lhs; rw [h3]
      rw [strLen_append, strLen_space]
    have l3 : input.length = a + (trimStartMatches ' ' input).length := by
      conv => lhs; rw [h1]
      simp
    have l4 : (trimStartMatches ' ' input).length =
        (trimEndMatches ' ' (trimStartMatches ' ' input)).length + b := by
      conv => lhs; rw [h3]
      simp
    have e1 : (trimStartMatches ' ' input ≠ input) ↔ a ≠ 0 := by
      constructor
      · rintro h rfl; exact h (by simpa using h1.symm)
      · intro h e; rw [e] at l1; omega
    have e2 : (trimEndMatches ' ' (trimStartMatches ' ' input) ≠ trimStartMatches ' ' input) ↔ b ≠ 0 := by
      constructor
      · rintro h rfl; exact h (by simpa using h3.symm)
      · intro h e; rw [e] at l2; omega
    have s1 : usub (strLen input) (strLen (trimStartMatches ' ' input)) = .ok a := by
      unfold usub; rw [if_pos (by omega)]; congr 1; omega
    have s2 : usub (strLen (trimStartMatches ' ' input))
        (strLen (trimEndMatches ' ' (trimStartMatches ' ' input))) = .ok b := by
      unfold usub; rw [if_pos (by omega)]; congr 1; omega
    have s3 : usub (strLen input) b = .ok (strLen input - b) := by
      unfold usub; rw [if_pos (by omega)]
    have s4 : usub input.length b = .ok (input.length - b) := by
      unfold usub; rw [if_pos (by omega)]
    unfold trimModifyWithPositions
    simp only [e1, e2, s1, s2, s3, s4, Outcome.ok_bind, Outcome.pure_eq]
    by_cases ha : a = 0 <;> by_cases hb : b = 0 <;> simp [ha, hb, trimModify, trimMatches]

theorem trimPos_eq (input : Str) : ∃ a b,
    input = List.replicate a ' ' ++ trimModify input ++ List.replicate b ' ' ∧
    trimModifyWithPositions input = .ok ⟨.trim, trimModify input,
      (if a = 0 then [] else [⟨List.replicate a ' ', [], 0, a, 0, a⟩]) ++
      (if b = 0 then [] else [⟨List.replicate b ' ', [], strLen input - b, b, input.length - b, b⟩])⟩ := by
  obtain ⟨a, b, -, -, h⟩ := trimPos_lengths input
  exact ⟨a, b, h⟩

/-! ## Reducer -/

theorem squeeze_not_mem' {c : Char} {pre s : Str} (hs : c ∉ s) :
    squeeze c (pre ++ s) = squeeze c pre ++ s := by
  rw [squeeze_append, squeeze_not_mem hs]
  rintro ⟨-, h⟩
  exact hs (List.mem_of_mem_head? h)

theorem red_other {c : Char} {s : Str} (hs : c ∉ s) (i : Nat) (out : Str) (ps : List Position) :
    (s.zipIdx i).foldl (reducePosStep c) (0, out, ps) = (0, out ++ s, ps) := by
  induction s generalizing i out with
  | nil => simp
  | cons a s ih =>
    have ha : c ≠ a := fun e => hs (by simp [e])
    have hs' : c ∉ s := fun e => hs (by simp [e])
    rw [List.zipIdx_cons, List.foldl_cons]
    have : reducePosStep c (0, out, ps) (a, i) = (0, out ++ [a], ps) := by
      simp [reducePosStep, ha]
    rw [this, ih hs']
    simp

theorem red_run (c : Char) (k i n : Nat) (out : Str) (ps : List Position) (hn : 0 < n) :
    ((List.replicate k c).zipIdx i).foldl (reducePosStep c) (n, out, ps) = (n + k, out, ps) := by
  induction k generalizing i n with
  | zero => simp
  | succ k ih =>
    rw [List.replicate_succ, List.zipIdx_cons, List.foldl_cons]
    have : reducePosStep c (n, out, ps) (c, i) = (n + 1, out, ps) := by
      simp [reducePosStep, hn]
    rw [this, ih _ _ (by omega)]
    congr 1; omega

theorem red_run0 (c : Char) (k i : Nat) (hk : 0 < k) (out : Str) (ps : List Position) :
    ((List.replicate k c).zipIdx i).foldl (reducePosStep c) (0, out, ps) = (k, out ++ [c], ps) := by
  obtain ⟨k, rfl⟩ : ∃ j, k = j + 1 := ⟨k - 1, by omega⟩
  rw [List.replicate_succ, List.zipIdx_cons, List.foldl_cons]
  have : reducePosStep c (0, out, ps) (c, i) = (1, out ++ [c], ps) := by simp [reducePosStep]
  rw [this, red_run _ _ _ _ _ _ (by omega)]
  congr 1; omega

theorem squeeze_run {c : Char} {pre : Str} (h : pre.getLast? ≠ some c) {k : Nat} (hk : 0 < k) :
    squeeze c (pre ++ List.replicate k c) = squeeze c pre ++ [c] := by
  rw [squeeze_append c _ _ (by simp [h])]
  obtain ⟨k, rfl⟩ : ∃ j, k = j + 1 := ⟨k - 1, by omega⟩
  rw [squeeze_replicate]

/-- One run followed by a non-empty piece. -/
theorem red_seg {c : Char} {pre s : Str} (hpre : pre.getLast? ≠ some c) {k : Nat} (hk : 0 < k)
    (hs : c ∉ s) (hne : s ≠ []) (ps : List Position) :
    ((List.replicate k c ++ s).zipIdx pre.length).foldl (reducePosStep c) (0, squeeze c pre, ps) =
      (0, squeeze c (pre ++ List.replicate k c ++ s), ps ++ [⟨List.replicate k c, [c],
        strLen (squeeze c pre) + c.utf8Size, k * c.utf8Size, pre.length + k, k⟩]) := by
  rw [List.zipIdx_append, List.foldl_append, red_run0 c k _ hk, squeeze_not_mem' hs, squeeze_run hpre hk]
  cases s with
  | nil => exact absurd rfl hne
  | cons a s =>
    have ha : c ≠ a := fun e => hs (by simp [e])
    have hs' : c ∉ s := fun e => hs (by simp [e])
    rw [List.zipIdx_cons, List.foldl_cons]
    have : reducePosStep c (k, squeeze c pre ++ [c], ps) (a, pre.length + (List.replicate k c).length) =
        (0, squeeze c pre ++ [c] ++ [a], ps ++ [⟨List.replicate k c, [c],
          strLen (squeeze c pre) + c.utf8Size, k * c.utf8Size, pre.length + k, k⟩]) := by
      simp [reducePosStep, ha, hk, Nat.mul_comm, strLen]
    rw [this, red_other hs']
    simp

theorem getLast?_not_mem {c : Char} {pre s : Str} (hs : c ∉ s) (hne : s ≠ []) :
    (pre ++ s).getLast? ≠ some c := by
  intro h
  rw [List.getLast?_append] at h
  cases hl : s.getLast? with
  | none => exact hne (List.getLast?_eq_none_iff.mp hl)
  | some d =>
    rw [hl] at h
    simp at h
    subst h
    exact hs (List.mem_of_getLast? hl)

theorem reducer_positions_go (c : Char) (total : Nat) (segs : List (Nat × Str)) :
    ∀ (pre : Str) (ps : List Position), pre.getLast? ≠ some c → RunsOk c segs →
      strLen pre + strLen (runsText c segs) = total →
      ∃ k qs, ((runsText c segs).zipIdx pre.length).foldl (reducePosStep c) (0, squeeze c pre, ps) =
          (k, squeeze c (pre ++ runsText c segs), ps ++ qs) ∧ k ≤ total ∧
        (if k = 0 then qs else qs ++ [⟨List.replicate k c, [c],
          strLen (squeeze c (pre ++ runsText c segs)), c.utf8Size * k, total - k, k⟩]) =
          reducerPositions c total pre segs := by
  induction segs with
  | nil =>
    intro pre ps _ _ _
    exact ⟨0, [], by simp [runsText], by omega, by simp [reducerPositions]⟩
  | cons s rest ih =>
    intro pre ps hpre hok htot
    obtain ⟨k, s⟩ := s
    by_cases hs0 : s = []
    · subst hs0
      have hrest : rest = [] := by
        cases rest with
        | nil => rfl
        | cons _ _ => exact absurd rfl hok.2.2.1
      subst hrest
      have hk : 0 < k := hok.1
      have ht : runsText c [(k, [])] = List.replicate k c := by simp [runsText]
      rw [ht] at htot ⊢
      refine ⟨k, [], ?_, ?_, ?_⟩
      · rw [red_run0 c k _ hk, squeeze_run hpre hk]; simp
      · have := length_le_strLen (List.replicate k c)
        simp at this; omega
      · rw [if_neg (by omega), squeeze_run hpre hk]
        simp [reducerPositions, strLen, Nat.mul_comm]
    · have hk : 0 < k := by cases rest <;> exact hok.1
      have hs : c ∉ s := by
        cases rest with
        | nil => exact hok.2
        | cons _ _ => exact hok.2.1
      have hok' : RunsOk c rest := by
        cases rest with
        | nil => trivial
        | cons _ _ => exact hok.2.2.2
      have ht : runsText c ((k, s) :: rest) = List.replicate k c ++ s ++ runsText c rest := by
        simp [runsText]
      obtain ⟨k', qs, h1, h2, h3⟩ := ih (pre ++ List.replicate k c ++ s)
        (ps ++ [⟨List.replicate k c, [c], strLen (squeeze c pre) + c.utf8Size, k * c.utf8Size,
          pre.length + k, k⟩])
        (getLast?_not_mem hs hs0) hok' (by rw [ht] at htot; simp only [strLen_append] at htot ⊢; omega)
      refine ⟨k', ⟨List.replicate k c, [c], strLen (squeeze c pre) + c.utf8Size, k * c.utf8Size,
          pre.length + k, k⟩ :: qs, ?_, h2, ?_⟩
      · rw [ht, List.zipIdx_append, List.foldl_append, red_seg hpre hk hs hs0]
        have hl : pre.length + (List.replicate k c ++ s).length =
            (pre ++ List.replicate k c ++ s).length := by simp
        rw [hl, h1]
        simp only [List.append_assoc, List.cons_append, List.nil_append]
      · rw [reducerPositions, ← h3, ht]
        simp only [hs0, if_false, List.append_assoc]
        split <;> simp

theorem reducer_positions (x : ConsecutiveCharacterReducer) (s0 : Str) (segs : List (Nat × Str))
    (h0 : x.c ∉ s0) (hok : RunsOk x.c segs) :
    x.modifyWithPositions (s0 ++ runsText x.c segs) =
      .ok ⟨.consecutiveCharacterReducer x, squeeze x.c (s0 ++ runsText x.c segs),
        reducerPositions x.c (strLen (s0 ++ runsText x.c segs)) s0 segs⟩ := by
  have hlast : s0.getLast? ≠ some x.c := fun h => h0 (List.mem_of_getLast? h)
  obtain ⟨k, qs, h1, h2, h3⟩ := reducer_positions_go x.c (strLen (s0 ++ runsText x.c segs)) segs s0 []
    hlast hok (strLen_append _ _).symm
  unfold ConsecutiveCharacterReducer.modifyWithPositions
  rw [List.zipIdx_append, List.foldl_append, red_other h0, Nat.zero_add, List.nil_append,
    ← squeeze_not_mem h0 (c := x.c)]
  rw [squeeze_not_mem h0 (c := x.c)] at h1 ⊢
  rw [h1]
  simp only [List.nil_append]
  rw [← h3]
  have hu : usub (strLen (s0 ++ runsText x.c segs)) k = .ok (strLen (s0 ++ runsText x.c segs) - k) := by
    unfold usub; rw [if_pos h2]
  by_cases hk : k = 0
  · simp [hk]
  · have : 0 < k := by omega
    simp only [this, if_true, hu, Outcome.ok_bind, Outcome.pure_eq, hk, if_false]

theorem exists_runs (c : Char) (text : Str) :
    ∃ s0 segs, text = s0 ++ runsText c segs ∧ c ∉ s0 ∧ RunsOk c segs := by
  induction text with
  | nil => exact ⟨[], [], rfl, by simp, trivial⟩
  | cons a t ih =>
    obtain ⟨s0, segs, rfl, h0, hok⟩ := ih
    by_cases ha : a = c
    · subst ha
      cases s0 with
      | cons b s0 =>
        refine ⟨[], (1, b :: s0) :: segs, by simp [runsText, List.replicate_succ], by simp, ?_⟩
        cases segs with
        | nil => exact ⟨by omega, h0⟩
        | cons s r => exact ⟨by show 0 < 1; omega, h0, by simp, hok⟩
      | nil =>
        cases segs with
        | nil => exact ⟨[], [(1, [])], by simp [runsText], by simp, by simp [RunsOk]⟩
        | cons s r =>
          obtain ⟨k, s⟩ := s
          refine ⟨[], (k + 1, s) :: r, by simp [runsText, List.replicate_succ], by simp, ?_⟩
          cases r with
          | nil => exact ⟨by omega, hok.2⟩
          | cons _ _ => exact ⟨by show 0 < k + 1; omega, hok.2⟩
    · refine ⟨a :: s0, segs, rfl, ?_, hok⟩
      intro h
      rcases List.mem_cons.mp h with h | h
      · exact ha h.symm
      · exact h0 h

/-! ## Coverage -/

theorem Covers.refl (t : Str) : Covers t t [] := by
  induction t with
  | nil => exact .nil
  | cons c t ih => exact .keep c ih

theorem Covers.prepend {a b : Str} {l} (h : Covers a b l) (t : Str) : Covers (t ++ a) (t ++ b) l := by
  induction t with
  | nil => exact h
  | cons c t ih => exact .keep c ih

/-- Without edits nothing changes. -/
theorem Covers.eq_of_nil {a b : Str} (h : Covers a b []) : a = b := by
  generalize he : ([] : List (Str × Str)) = l at h
  induction h with
  | nil => rfl
  | keep c _ ih => rw [ih he]
  | edit => cases he

theorem covers_runs {c : Char} (total : Nat) {pre : Str} {segs : List (Nat × Str)} (hok : RunsOk c segs)
    (hpre : segs ≠ [] → pre.getLast? ≠ some c) :
    ∃ o, squeeze c (pre ++ runsText c segs) = squeeze c pre ++ o ∧
      Covers (runsText c segs) o ((reducerPositions c total pre segs).map fun p => (p.from, p.to)) := by
  induction segs generalizing pre with
  | nil => exact ⟨[], by simp [runsText], .nil⟩
  | cons s rest ih =>
    have h0 : 0 < s.1 ∧ c ∉ s.2 ∧ (rest ≠ [] → s.2 ≠ []) ∧ RunsOk c rest := by
      cases rest with
      | nil => exact ⟨hok.1, hok.2, by simp, trivial⟩
      | cons r rest => exact ⟨hok.1, hok.2.1, fun _ => hok.2.2.1, hok.2.2.2⟩
    obtain ⟨h1, h2, h3, h4⟩ := h0
    obtain ⟨o, ho, hc⟩ := @ih (pre ++ List.replicate s.1 c ++ s.2) h4 (by
      intro hne hl
      have hs := h3 hne
      rw [List.getLast?_append, List.getLast?_eq_some_getLast hs, Option.some_or, Option.some.injEq] at hl
      exact h2 (hl ▸ List.getLast_mem hs))
    refine ⟨[c] ++ (s.2 ++ o), ?_, ?_⟩
    · have e : pre ++ runsText c (s :: rest) = pre ++ List.replicate s.1 c ++ s.2 ++ runsText c rest := by
        simp [runsText]
      rw [e, ho, squeeze_not_mem' h2, squeeze_run (hpre (by simp)) h1]
      simp
    · have e : runsText c (s :: rest) = List.replicate s.1 c ++ (s.2 ++ runsText c rest) := by
        simp [runsText]
      rw [e]
      exact .edit _ _ (hc.prepend s.2)

theorem reducerPositions_get (c : Char) (total : Nat) (pre : Str) (l : List (Nat × Str)) (s : Nat × Str)
    (rest : List (Nat × Str)) :
    (reducerPositions c total pre (l ++ s :: rest))[l.length]? = some
      { «from» := List.replicate s.1 c
        to := [c]
        index := strLen (squeeze c (pre ++ runsText c l)) + c.utf8Size
        length := s.1 * c.utf8Size
        utf8Index := if s.2 = [] then total - s.1 else (pre ++ runsText c l).length + s.1
        utf8Length := s.1 } := by
  induction l generalizing pre with
  | nil => simp [reducerPositions, runsText]
  | cons a l ih =>
    have := ih (pre ++ List.replicate a.1 c ++ a.2)
    simp only [List.cons_append, reducerPositions, List.length_cons, List.getElem?_cons_succ]
    rw [this]
    simp [runsText]

theorem strLen_ascii (l : Str) : strLen l = l.length ↔ ∀ x ∈ l, x.utf8Size = 1 := by
  induction l with
  | nil => simp [strLen]
  | cons a l ih =>
    rw [strLen_cons, List.length_cons]
    have h1 := Char.utf8Size_pos a
    have h2 := length_le_strLen l
    simp only [List.mem_cons, forall_eq_or_imp]
    rw [← ih]
    omega

theorem RunsOk.drop {c : Char} {l : List (Nat × Str)} {segs : List (Nat × Str)} (h : RunsOk c (l ++ segs)) :
    RunsOk c segs := by
  induction l with
  | nil => exact h
  | cons a l ih =>
    apply ih
    cases hl : l ++ segs with
    | nil => trivial
    | cons b m =>
      rw [List.cons_append, hl] at h
      exact h.2.2.2

end Chanoma
