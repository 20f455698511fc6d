import Verif.Props.LigatureExact
import Verif.Props.Bounds
/-! # C26: exactly when and by which modifiers something is reported -/

namespace Chanoma

/-- C26, exactly when something is reported: trim reports iff it changes the text, the reducer iff its
character occurs (a single occurrence is reported too), the converter iff a character of its table
occurs (replaced by itself or not). -/
theorem C26_when_reported (σ : Oracle) (input : Str) (r : ModifiedRecord) :
    (ModifierKind.trim.modifyWithPositions σ input = .ok r → (r.positions = [] ↔ r.text = input)) ∧
    (∀ c, (ModifierKind.consecutiveCharacterReducer ⟨c⟩).modifyWithPositions σ input = .ok r →
      (r.positions = [] ↔ c ∉ input)) ∧
    (∀ x, (ModifierKind.characterConverter x).modifyWithPositions σ input = .ok r →
      (r.positions = [] ↔ ∀ c ∈ input, x.itemsMap.get? c = none)) := by
  refine ⟨fun h => ?_, fun c h => ?_, fun x h => ?_⟩
  · obtain ⟨a, b, h1, h2⟩ := trimPos_eq input
    rw [ModifierKind.modifyWithPositions, h2] at h
    cases h
    have hl := congrArg List.length h1
    simp only [List.length_append, List.length_replicate] at hl
    constructor
    · intro h
      have ha : a = 0 := by
        refine Classical.byContradiction fun ha => ?_
        rw [if_neg ha] at h; simp at h
      have hb : b = 0 := by
        refine Classical.byContradiction fun hb => ?_
        rw [if_neg hb] at h; simp at h
      rw [ha, hb] at h1
      simpa using h1.symm
    · intro h
      simp only at h
      rw [h] at hl
      have ha : a = 0 := by omega
      have hb : b = 0 := by omega
      simp [ha, hb]
  · obtain ⟨s0, segs, rfl, h0, hok⟩ := exists_runs c input
    rw [ModifierKind.modifyWithPositions, reducer_positions ⟨c⟩ s0 segs h0 hok] at h
    cases h
    cases segs with
    | nil => simpa [reducerPositions, runsText] using h0
    | cons s rest =>
      have hpos : 0 < s.1 := by
        cases rest with
        | nil => exact hok.1
        | cons _ _ => exact hok.1
      constructor
      · intro h; simp [reducerPositions] at h
      · intro h
        refine absurd ?_ h
        simp only [runsText, List.flatMap_cons, List.mem_append, List.mem_replicate]
        exact .inr (.inl (.inl ⟨by omega, trivial⟩))
  · obtain ⟨ps, h1, h2⟩ := modifyWithPositions_eq x σ input
    rw [ModifierKind.modifyWithPositions, h1] at h
    cases h
    rw [occPos_substPositions] at h2
    simp only
    constructor
    · intro h c hc
      rw [h] at h2
      obtain ⟨u, v, rfl⟩ := List.append_of_mem hc
      cases hg : x.itemsMap.get? c with
      | none => rfl
      | some d =>
        have := (mem_substPositions x.itemsMap.get? [] (u ++ c :: v) _).2 ⟨u, c, d, v, rfl, hg, rfl⟩
        rw [h2.symm.eq_nil] at this
        cases this
    · intro h
      have hnil : substPositions x.itemsMap.get? [] input = [] := by
        refine List.eq_nil_iff_forall_not_mem.2 fun p hp => ?_
        obtain ⟨u, c, d, v, e, hf, -⟩ := (mem_substPositions _ _ _ _).1 hp
        rw [h c (by rw [e]; simp)] at hf
        cases hf
      rw [hnil] at h2
      exact h2.eq_nil

/-! ## Which translators change a text -/

theorem strReplace_empty (v t : Str) : (strReplace [] v t).length = t.length + (t.length + 1) * v.length := by
  simp only [strReplace, List.length_append]
  induction t with
  | nil => simp
  | cons c t ih =>
    simp only [List.flatMap_cons, List.length_append, List.length_cons]
    rw [Nat.add_mul (t.length + 1) 1]
    omega

/-- A rule that makes the text longer wherever it applies. -/
def Grows (e : Str × Str) : Prop := e.1.length < e.2.length

theorem Grows.le {e : Str × Str} (h : Grows e) (t : Str) : t.length ≤ (strReplace e.1 e.2 t).length := by
  obtain ⟨k, v⟩ := e
  by_cases hk : k = []
  · subst hk; rw [strReplace_empty]; omega
  · obtain ⟨n, h1, -⟩ := strReplace_length hk v t
    have := Nat.mul_le_mul_left n (Nat.le_of_lt (show k.length < v.length from h))
    simp only at *; omega

theorem Grows.lt {e : Str × Str} (h : Grows e) : e.1.length < (strReplace e.1 e.2 e.1).length := by
  obtain ⟨k, v⟩ := e
  by_cases hk : k = []
  · subst hk; rw [strReplace_empty]; simpa [Grows] using h
  · obtain ⟨n, h1, h2⟩ := strReplace_length hk v k
    have h3 := h2 (List.infix_refl _)
    have := Nat.mul_lt_mul_of_pos_left (show k.length < v.length from h) h3
    simp only at *; omega

/-- A translator leaves every text as it is, in every order, if and only if each of its rules replaces
its key by itself. -/
theorem ligature_identity_iff (x : LigatureTranslator) :
    (∀ σ text, x.modify σ text = text) ↔ ∀ e ∈ x.map, e.2 = e.1 := by
  constructor
  · intro h
    have first : ∀ e ∈ x.map, ∃ rest : List (Str × Str), (∀ e' ∈ rest, e' ∈ x.map) ∧ ∀ t,
        rest.foldl (fun text e => strReplace e.1 e.2 text) (strReplace e.1 e.2 t) = t := by
      intro e he
      obtain ⟨l1, l2, e1⟩ := List.append_of_mem he
      obtain ⟨σ, hσ⟩ := Oracle.exists_iter (l := x.map) (l' := e :: (l1 ++ l2))
        (by rw [e1]; exact List.perm_middle.symm)
      refine ⟨l1 ++ l2, fun e' he' => ?_, fun t => ?_⟩
      · rw [e1]; rcases List.mem_append.1 he' with h | h <;> simp [h]
      · have := h σ t
        rwa [LigatureTranslator.modify, hσ, List.foldl_cons] at this
    have hgrow : ∀ e ∈ x.map, e.2 = e.1 ∨ Grows e := by
      intro e he
      by_cases hid : e.2 = e.1
      · exact .inl hid
      refine .inr ?_
      obtain ⟨rest, -, h1⟩ := first e he
      by_cases hk : e.1 = []
      · rw [hk] at hid
        simp only [Grows, hk, List.length_nil]
        exact List.length_pos_iff.2 hid
      · by_cases hi : e.1 <:+: e.2
        · refine Nat.lt_of_le_of_ne hi.length_le fun hl => hid (hi.eq_of_length hl).symm
        · have h2 := h1 e.1
          have h3 := h1 e.2
          rw [strReplace_absent hk _ hi] at h3
          have h4 := strReplace_hit hk e.2 []
          rw [List.append_nil, strReplace_nil hk, List.append_nil] at h4
          rw [h4, h3] at h2
          exact absurd h2 hid
    intro e he
    refine (hgrow e he).resolve_right fun hg => ?_
    obtain ⟨rest, h1, h2⟩ := first e he
    have hle : ∀ t : Str, t.length ≤ (rest.foldl (fun text e => strReplace e.1 e.2 text) t).length := by
      clear h2
      induction rest with
      | nil => intro t; exact Nat.le_refl _
      | cons e' rest ih =>
        intro t
        refine Nat.le_trans ?_ (ih (fun e he => h1 e (by simp [he])) _)
        show t.length ≤ (strReplace e'.1 e'.2 t).length
        rcases hgrow e' (h1 e' (by simp)) with h | h
        · by_cases hk : e'.1 = []
          · rw [h, hk, strReplace_empty]; omega
          · rw [h, strReplace_self hk]; exact Nat.le_refl _
        · exact h.le t
    have := hle (strReplace e.1 e.2 e.1)
    rw [h2 e.1] at this
    have := hg.lt
    omega
  · intro h σ text
    rw [LigatureTranslator.modify]
    have hm : ∀ e ∈ σ.iter x.map, e.2 = e.1 := fun e he => h e ((σ.iter_perm _).mem_iff.1 he)
    generalize σ.iter x.map = l at hm
    induction l generalizing text with
    | nil => rfl
    | cons e l ih =>
      rw [List.foldl_cons]
      have h1 : strReplace e.1 e.2 text = text := by
        rw [hm e (by simp)]
        by_cases hk : e.1 = []
        · rw [hk, strReplace]; simp
        · exact strReplace_self hk text
      rw [h1]
      exact ih text fun e he => hm e (by simp [he])

/-- C26, exactly by which modifiers: a modifier reports something whenever it changes a text if and only
if it is a converter, a trim or a reducer, or one that never changes anything (an eliminator without
characters, a translator whose rules replace their keys by themselves). -/
theorem C26_which_modifiers (k : ModifierKind) (hn : ∀ n, k = .neologdn n → ∃ σ, Neologdn.new σ = .ok n) :
    (∀ σ input r, k.modifyWithPositions σ input = .ok r → r.text ≠ input → r.positions ≠ []) ↔
      (∃ x, k = .characterConverter x) ∨ k = .trim ∨ (∃ x, k = .consecutiveCharacterReducer x) ∨
      k = .characterEliminator ⟨[]⟩ ∨ ∃ x, k = .ligatureTranslator x ∧ ∀ e ∈ x.map, e.2 = e.1 := by
  constructor
  · intro h
    cases k with
    | characterConverter x => exact .inl ⟨x, rfl⟩
    | trim => exact .inr (.inl rfl)
    | consecutiveCharacterReducer x => exact .inr (.inr (.inl ⟨x, rfl⟩))
    | characterEliminator x =>
      obtain ⟨l⟩ := x
      cases l with
      | nil => exact .inr (.inr (.inr (.inl rfl)))
      | cons c l =>
        exact absurd rfl (h .insertion [c] _ rfl (by
          simp [CharacterEliminator.modifyWithPositions, CharacterEliminator.modify]))
    | dottedSpaceEliminator =>
      exact absurd rfl (h .insertion (c! " b") _ rfl (by decide +kernel))
    | ligatureTranslator x =>
      refine .inr (.inr (.inr (.inr ⟨x, rfl, ?_⟩)))
      refine (ligature_identity_iff x).1 fun σ text => Classical.byContradiction fun hne => ?_
      exact absurd rfl (h σ text _ rfl hne)
    | neologdn n =>
      obtain ⟨σ, hσ⟩ := hn n rfl
      obtain ⟨x, h1, -, -, h2⟩ := neologdn_new σ
      rw [h1] at hσ; cases hσ
      exact absurd rfl (h .insertion (c! "Ａ") _ (by rw [ModifierKind.modifyWithPositions, h2]) (by
        simp only; decide +kernel))
  · intro h σ input r hr
    rcases h with h | h | h | h | ⟨x, rfl, h⟩
    · exact (C26_covered_partial σ input k r (.inl h) hr).2
    · exact (C26_covered_partial σ input k r (.inr (.inl h)) hr).2
    · exact (C26_covered_partial σ input k r (.inr (.inr h)) hr).2
    · subst h
      rw [ModifierKind.modifyWithPositions] at hr
      cases hr
      intro hne
      refine absurd ?_ hne
      simp only [CharacterEliminator.modifyWithPositions, CharacterEliminator.modify]
      have : ∀ (l a : Str), l.foldl (fun s c => if c ∈ ([] : List Char) then s else s ++ [c]) a = a ++ l := by
        intro l
        induction l with
        | nil => simp
        | cons c l ih =>
          intro a
          rw [List.foldl_cons, if_neg (by simp), ih]
          simp
      simpa using this input []
    · rw [ModifierKind.modifyWithPositions] at hr
      cases hr
      exact fun hne => absurd ((ligature_identity_iff x).2 h σ input) hne

/-- A modifier of each kind: a translator that swaps two characters in one order and keeps them in the
other does change a text. -/
example : ¬ ∀ e ∈ [(c! "a", c! "b"), (c! "b", c! "a")], e.2 = e.1 := by decide +kernel
example : LigatureTranslator.modify ⟨[(c! "a", c! "b"), (c! "b", c! "a")]⟩ .insertion (c! "a") = c! "a" ∧
    LigatureTranslator.modify ⟨[(c! "a", c! "b"), (c! "b", c! "a")]⟩ .reversed (c! "a") = c! "b" := by
  decide +kernel
example : ∃ n, Neologdn.new .insertion = .ok n := (neologdn_new .insertion).imp fun _ h => h.1
/-- Reported though nothing changes: a single occurrence, and a character converted to itself. -/
example : (∃ r, (ModifierKind.consecutiveCharacterReducer ⟨'ー'⟩).modifyWithPositions .insertion (c! "スー") = .ok r ∧
      r.text = c! "スー" ∧ r.positions.length = 1) ∧
    (∃ r, (ModifierKind.characterConverter ⟨[('a', 'a')]⟩).modifyWithPositions .insertion (c! "ba") = .ok r ∧
      r.text = c! "ba" ∧ r.positions.length = 1) :=
  ⟨⟨_, rfl, by decide +kernel⟩, ⟨_, rfl, by decide +kernel⟩⟩

end Chanoma
