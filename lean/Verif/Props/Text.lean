import Verif.Proofs.Text
/-! # C09, C10, C11, C12, C13: eliminator, reducer, dotted spaces, trim -/

namespace Chanoma

/-! ## C09 -/

/-- C09: the eliminator deletes exactly the configured characters. -/
theorem C09_eliminator (σ : Oracle) (cs : List Char) (text : Str) :
    (ModifierKind.characterEliminator (.fromChars cs)).modify σ text =
      .ok (text.filter fun c => c ∉ cs) := by
  simp only [ModifierKind.modify, eliminator_eq, mem_fromChars]

/-- C09 spelled out on concatenations. -/
theorem C09_eliminator_parts (σ : Oracle) (cs : List Char) (u v : Str) (c : Char) (out : Str)
    (h : (ModifierKind.characterEliminator (.fromChars cs)).modify σ (u ++ v) = .ok out) :
    (c ∈ cs → (ModifierKind.characterEliminator (.fromChars cs)).modify σ (u ++ c :: v) = .ok out) ∧
    (c ∉ cs → ∃ a b, out = a ++ b ∧ (∀ x ∈ a, x ∉ cs) ∧ (∀ x ∈ b, x ∉ cs) ∧
      (ModifierKind.characterEliminator (.fromChars cs)).modify σ (u ++ c :: v) = .ok (a ++ c :: b)) := by
  rw [C09_eliminator] at h ⊢
  cases h
  refine ⟨fun hc => by simp [hc], fun hc => ⟨u.filter (fun c => c ∉ cs), v.filter (fun c => c ∉ cs),
    by simp, by simp, by simp, by simp [hc]⟩⟩

example : (ModifierKind.characterEliminator (.fromChars (c! "~∼"))).modify .insertion (c! "a~b∼~c") =
    .ok (c! "abc") := by decide +kernel

/-! ## C10 -/

/-- C10: the reducer collapses the runs of its character. -/
theorem C10_reducer (σ : Oracle) (c : Char) (text : Str) :
    (ModifierKind.consecutiveCharacterReducer ⟨c⟩).modify σ text = .ok (squeeze c text) := by
  simp only [ModifierKind.modify, reducer_eq]

/-- C10: a maximal run becomes a single character and the parts around it are reduced on their
own; a text without the character is unchanged. -/
theorem C10_runs (c : Char) (u v : Str) (k : Nat) (hu : u.getLast? ≠ some c) (hv : v.head? ≠ some c) :
    squeeze c (u ++ List.replicate (k + 1) c ++ v) = squeeze c u ++ [c] ++ squeeze c v ∧
    (c ∉ u → squeeze c u = u) := by
  refine ⟨?_, squeeze_not_mem⟩
  rw [squeeze_append c _ v (by simp [hv]), squeeze_append c u _ (by simp [hu]), squeeze_replicate]

/-- C10: the result has no two adjacent `c`, and reducing again changes nothing. -/
theorem C10_idempotent (σ τ : Oracle) (c : Char) (text : Str) :
    ∃ out, (ModifierKind.consecutiveCharacterReducer ⟨c⟩).modify σ text = .ok out ∧
      (∀ u v, out ≠ u ++ c :: c :: v) ∧
      (ModifierKind.consecutiveCharacterReducer ⟨c⟩).modify τ out = .ok out :=
  ⟨_, C10_reducer σ c text, squeeze_no_pair c text, by rw [C10_reducer, squeeze_idem]⟩

example : (c! "スー").getLast? ≠ some 'a' ∧ squeeze 'ー' (c! "スーーパーーー") = c! "スーパー" := by
  decide +kernel

/-! ## C11 -/

/-- C11: the modifier follows the dotted-space rule `spaceRule` (split at spaces, put one space
back exactly between pieces that touch in ASCII alphanumerics). -/
theorem C11_dotted_space (σ : Oracle) (text : Str) :
    ModifierKind.dottedSpaceEliminator.modify σ text = .ok (spaceRule text) := by
  simp only [ModifierKind.modify, dotted_eq]

/-- C11 as equations: non-space characters are kept in order; leading and trailing spaces
disappear; between neighbours `a` and `b` one space is left iff there was one and both are ASCII
alphanumeric; a text without spaces is unchanged. -/
theorem C11_equations (text u v : Str) (a b : Char) (k : Nat) (ha : a ≠ ' ') (hb : b ≠ ' ') :
    (spaceRule text).filter (· ≠ ' ') = text.filter (· ≠ ' ') ∧
    spaceRule (List.replicate k ' ' ++ text) = spaceRule text ∧
    spaceRule (text ++ List.replicate k ' ') = spaceRule text ∧
    spaceRule (u ++ [a] ++ List.replicate k ' ' ++ [b] ++ v) =
      spaceRule (u ++ [a]) ++ (if 0 < k ∧ IsAlnum (some a) ∧ IsAlnum (some b) then [' '] else []) ++
        spaceRule (b :: v) ∧
    (' ' ∉ text → spaceRule text = text) := by
  simp only [← dotted_eq]
  refine ⟨?_, ?_, ?_, ?_, fun h => dotted_fix fun u v e => absurd (by rw [e]; simp) h⟩
  · rw [dotted_eq_dGo]; exact dGo_nonspace text false false
  · rw [dotted_eq_dGo, dotted_eq_dGo, dGo_replicate]
    cases text with
    | nil => rfl
    | cons c t => simp [dGo]
  · rw [dotted_eq_dGo, dotted_eq_dGo, dGo_trailing]
  · have := dGo_gap ha hb u v k false false
    simp only [dotted_eq_dGo]
    simp only [List.append_assoc, List.cons_append, List.nil_append] at this ⊢
    rw [this]
    congr 2
    simp only [Bool.and_eq_true, decide_eq_true_eq, isAlnum_iff]
    by_cases h1 : 0 < k <;> by_cases h2 : IsAlnum (some a) <;> by_cases h3 : IsAlnum (some b) <;>
      simp [h1, h2, h3]

/-- C11: in the result every space stands between two ASCII alphanumerics. -/
theorem C11_result_spaces (text : Str) : SpacesOk (spaceRule text) := by
  rw [← dotted_eq]; exact dotted_spacesOk text

example : ModifierKind.dottedSpaceEliminator.modify .insertion (c! "  a b あ  c 1  2 ") =
    .ok (c! "a bあc 1 2") ∧ 'a' ≠ ' ' := by decide +kernel

/-! ## C12 -/

/-- C12: the dotted-space modifier is idempotent, and trimming or reducing spaces before or
after it makes no difference. -/
theorem C12_subsumes (σ : Oracle) (text : Str) :
    (do let t ← ModifierKind.dottedSpaceEliminator.modify σ text
        ModifierKind.dottedSpaceEliminator.modify σ t) =
      ModifierKind.dottedSpaceEliminator.modify σ text ∧
    (do let t ← ModifierKind.trim.modify σ text
        ModifierKind.dottedSpaceEliminator.modify σ t) =
      ModifierKind.dottedSpaceEliminator.modify σ text ∧
    (do let t ← ModifierKind.dottedSpaceEliminator.modify σ text
        ModifierKind.trim.modify σ t) =
      ModifierKind.dottedSpaceEliminator.modify σ text ∧
    (do let t ← (ModifierKind.consecutiveCharacterReducer ⟨' '⟩).modify σ text
        ModifierKind.dottedSpaceEliminator.modify σ t) =
      ModifierKind.dottedSpaceEliminator.modify σ text ∧
    (do let t ← ModifierKind.dottedSpaceEliminator.modify σ text
        (ModifierKind.consecutiveCharacterReducer ⟨' '⟩).modify σ t) =
      ModifierKind.dottedSpaceEliminator.modify σ text := by
  simp only [ModifierKind.modify, Outcome.ok_bind, reducer_eq, Outcome.ok.injEq]
  have hok := dotted_spacesOk text
  refine ⟨dotted_fix hok, ?_, ?_, ?_, ?_⟩
  · obtain ⟨a, b, h, -, -⟩ := trim_eq text
    rw [dotted_eq, dotted_eq]
    conv => rhs; rw [h]
    rw [List.append_assoc]
    have e := fun t k => C11_equations t [] [] 'a' 'a' k (by decide) (by decide)
    rw [(e _ a).2.1, (e _ b).2.2.1]
  · obtain ⟨a, b, h, h1, h2⟩ := trim_eq (dottedModify text)
    have : dottedModify text = List.replicate 0 ' ' ++ dottedModify text ++ List.replicate 0 ' ' := by
      simp
    refine (trim_unique (this.symm.trans h) ?_ ?_ h1 h2).symm
    · intro hh
      cases hd : dottedModify text with
      | nil => rw [hd] at hh; simp at hh
      | cons c t =>
        rw [hd] at hh hok
        simp only [List.head?_cons, Option.some.injEq] at hh
        subst hh
        exact (hok [] t rfl).1
    · intro hh
      rw [List.getLast?_eq_some_iff] at hh
      obtain ⟨u, hu⟩ := hh
      exact (hok u [] hu).2
  · rw [dotted_eq, dotted_eq]
    unfold spaceRule
    rw [words_squeeze]
  · apply squeeze_fix
    intro u v e
    have := (hok u (' ' :: v) e).2
    exact absurd (show IsAlnum (some ' ') from this) (by decide)

/-! ## C13 -/

/-- C13: trim returns the unique text without space at either end from which the input is
obtained by adding spaces on both ends. -/
theorem C13_trim (σ : Oracle) (text : Str) :
    ∃ out, ModifierKind.trim.modify σ text = .ok out ∧
      out.head? ≠ some ' ' ∧ out.getLast? ≠ some ' ' ∧
      (∃ a b, text = List.replicate a ' ' ++ out ++ List.replicate b ' ') ∧
      ∀ out', out'.head? ≠ some ' ' → out'.getLast? ≠ some ' ' →
        (∃ a b, text = List.replicate a ' ' ++ out' ++ List.replicate b ' ') → out' = out := by
  obtain ⟨a, b, h, h1, h2⟩ := trim_eq text
  refine ⟨_, rfl, h1, h2, ⟨a, b, h⟩, ?_⟩
  rintro out' h1' h2' ⟨a', b', h'⟩
  exact trim_unique (h'.symm.trans h) h1' h2' h1 h2

example : ModifierKind.trim.modify .insertion (c! "  a  b ") = .ok (c! "a  b") ∧
    ModifierKind.trim.modify .insertion (c! "   ") = .ok [] ∧
    ModifierKind.trim.modify .insertion (c! "　a\t") = .ok (c! "　a\t") := by decide +kernel

end Chanoma
