import Verif.Proofs.Ligature
import Verif.Proofs.Positions
import Verif.Proofs.Width
/-! # Lemmas about neologdn -/

namespace Chanoma

/-! ## Composition of sound marks -/

theorem voiced_cases {a m b : Char} (h : voiced a m = some b) :
    ([a, m], [b]) ∈ neologdnLigatures := by
  have h1 : ∀ a ∈ c! "かきくけこさしすせそたちつてとはひふへほカキクケコサシスセソタチツテトハヒフヘホ",
      ([a, '゛'], [Char.ofNat (a.toNat + 1)]) ∈ neologdnLigatures := by decide +kernel
  have h2 : ∀ a ∈ c! "はひふへほハヒフヘホ",
      ([a, '゜'], [Char.ofNat (a.toNat + 2)]) ∈ neologdnLigatures := by decide +kernel
  unfold voiced at h
  split at h
  · rename_i hm; subst hm
    split at h
    · rename_i ha; cases h; exact h1 a ha
    · split at h
      · rename_i ha; subst ha; cases h; decide +kernel
      · split at h
        · rename_i ha; subst ha; cases h; decide +kernel
        · cases h
  · split at h
    · rename_i hm; subst hm
      split at h
      · rename_i ha; cases h; exact h2 a ha
      · cases h
    · cases h

/-- What all composition rules have in common. -/
theorem ligature_shape : ∀ r ∈ neologdnLigatures, ∃ a m b, r = ([a, m], [b]) := by
  intro r hr
  have h : ∀ r ∈ neologdnLigatures, r.1.length = 2 ∧ r.2.length = 1 := by decide +kernel
  obtain ⟨h1, h2⟩ := h r hr
  rcases r with ⟨k, v⟩
  match k, v, h1, h2 with
  | [a, m], [b], _, _ => exact ⟨a, m, b, rfl⟩

theorem ligature_voiced {a m b : Char} (h : ([a, m], [b]) ∈ neologdnLigatures) :
    voiced a m = some b := by
  have h1 : ∀ r ∈ neologdnLigatures, ∀ a ∈ r.1.head?, ∀ m ∈ r.1.getLast?, voiced a m = r.2.head? := by
    decide +kernel
  exact h1 _ h a (by simp) m (by simp)

/-- Facts about a composable pair and its composition. -/
def VoicedFacts (a m b : Char) : Prop :=
  isAsciiAlphanumeric a = false ∧ isAsciiAlphanumeric m = false ∧ isAsciiAlphanumeric b = false ∧
  a ≠ ' ' ∧ m ≠ ' ' ∧ b ≠ ' ' ∧ a ≠ 'ー' ∧ m ≠ 'ー' ∧ b ≠ 'ー' ∧ b ∉ tildeChars ∧
  neologdnFold b = b ∧ b ≠ '゛' ∧ b ≠ '゜' ∧ (m = '゛' ∨ m = '゜') ∧
  voiced b '゛' = none ∧ voiced b '゜' = none

instance (a m b : Char) : Decidable (VoicedFacts a m b) := by
  unfold VoicedFacts; infer_instance

theorem voiced_facts {a m b : Char} (h : voiced a m = some b) :
    VoicedFacts a m b := by
  have h0 := voiced_cases h
  have h1 : ∀ r ∈ neologdnLigatures, ∀ a ∈ r.1.head?, ∀ m ∈ r.1.getLast?, ∀ b ∈ r.2.head?,
    VoicedFacts a m b := by decide +kernel
  exact h1 _ h0 a rfl m rfl b rfl

theorem voiced_mark {a m b : Char} (h : voiced a m = some b) : m = '゛' ∨ m = '゜' :=
  (voiced_facts h).2.2.2.2.2.2.2.2.2.2.2.2.2.1

theorem voiced_none {a m : Char} (h1 : m ≠ '゛') (h2 : m ≠ '゜') : voiced a m = none := by
  simp [voiced, h1, h2]

/-- Induction along `composeMarks`. -/
theorem compose_induction {P : Str → Prop} (h0 : P []) (h1 : ∀ a, P [a])
    (h2 : ∀ a m t b, voiced a m = some b → P t → P (a :: m :: t))
    (h3 : ∀ a m t, voiced a m = none → P (m :: t) → P (a :: m :: t)) (t : Str) : P t := by
  suffices ∀ n, ∀ t : Str, t.length ≤ n → P t from this t.length t (Nat.le_refl _)
  intro n
  induction n with
  | zero => intro t ht; cases t with
    | nil => exact h0
    | cons _ _ => simp at ht
  | succ n ih =>
    intro t ht
    match t, ht with
    | [], _ => exact h0
    | [a], _ => exact h1 a
    | a :: m :: t, ht =>
      cases hv : voiced a m with
      | some b => exact h2 a m t b hv (ih t (by simp at ht; omega))
      | none => exact h3 a m t hv (ih (m :: t) (by simpa using ht))

theorem compose_hit {a m b : Char} (h : voiced a m = some b) (t : Str) :
    composeMarks (a :: m :: t) = b :: composeMarks t := by
  rw [composeMarks.eq_def]; simp [h]

theorem compose_keep {a m : Char} (h : voiced a m = none) (t : Str) :
    composeMarks (a :: m :: t) = a :: composeMarks (m :: t) := by
  rw [composeMarks.eq_def]; simp [h]

theorem compose_nil : composeMarks [] = [] := rfl
theorem compose_one (a : Char) : composeMarks [a] = [a] := rfl

theorem compose_replaced (t : Str) : Replaced neologdnLigatures t (composeMarks t) := by
  induction t using compose_induction with
  | h0 => exact .nil
  | h1 a =>
    rw [compose_one]
    refine .keep ?_ .nil
    intro r hr hp
    obtain ⟨a', m, b, rfl⟩ := ligature_shape r hr
    have := hp.length_le
    simp at this
  | h2 a m t b hv ih =>
    rw [compose_hit hv]
    exact .hit (k := [a, m]) (v := [b]) (voiced_cases hv) (by simp) ih
  | h3 a m t hv ih =>
    rw [compose_keep hv]
    refine .keep ?_ ih
    intro r hr hp
    obtain ⟨a', m', b, rfl⟩ := ligature_shape r hr
    simp only [List.cons_prefix_cons, List.nil_prefix, and_true] at hp
    obtain ⟨rfl, rfl⟩ := hp
    rw [ligature_voiced hr] at hv
    cases hv

theorem ligatures_nonInterfering : NonInterfering neologdnLigatures := by decide +kernel

theorem ligatures_nodup : (neologdnLigatures.map Prod.fst).Nodup := by decide +kernel

theorem ligature_eq (σ : Oracle) (t : Str) :
    (LigatureTranslator.mk neologdnLigatures).modify σ t = composeMarks t :=
  (ligature_replaced ⟨neologdnLigatures⟩ σ t ligatures_nonInterfering ligatures_nodup).unique
    ligatures_nonInterfering ligatures_nodup (compose_replaced t)

/-- The first character after composition. -/
theorem compose_head (t : Str) (P : Char → Prop) (hP : ∀ a m b, voiced a m = some b → (P a ↔ P b)) :
    (∃ c, (composeMarks t).head? = some c ∧ P c) ↔ ∃ c, t.head? = some c ∧ P c := by
  match t with
  | [] => simp [compose_nil]
  | [a] => simp [compose_one]
  | a :: m :: t =>
    cases hv : voiced a m with
    | some b => rw [compose_hit hv]; simp [hP a m b hv]
    | none => rw [compose_keep hv]; simp

theorem compose_alnumB (t : Str) : alnumB (composeMarks t).head? = alnumB t.head? := by
  match t with
  | [] => rfl
  | [a] => rfl
  | a :: m :: t =>
    cases hv : voiced a m with
    | some b =>
      have := voiced_facts hv
      rw [compose_hit hv]; simp [alnumB, this.1, this.2.2.1]
    | none => rw [compose_keep hv]; rfl

/-! ## Spaces survive -/

theorem spOk_mono {p q : Bool} (hpq : p = true → q = true) (t : Str) (h : spOk p t = true) :
    spOk q t = true := by
  cases t with
  | nil => rfl
  | cons c t =>
    by_cases hc : c = ' '
    · subst hc
      simp only [spOk, if_true, Bool.and_eq_true] at h ⊢
      exact ⟨⟨hpq h.1.1, h.1.2⟩, h.2⟩
    · simp only [spOk, hc, if_false] at h ⊢
      exact h

theorem spOk_filter (P : Char → Bool) (hP : ∀ c, P c = false → c ≠ ' ' ∧ isAsciiAlphanumeric c = false)
    (t : Str) {p : Bool} (h : spOk p t = true) : spOk p (t.filter P) = true := by
  have hhead : ∀ t : Str, alnumB t.head? = true → alnumB (t.filter P).head? = true := by
    intro t ht
    cases t with
    | nil => exact ht
    | cons c t =>
      have : P c = true := by
        cases hc : P c with
        | true => rfl
        | false => simp [alnumB, (hP c hc).2] at ht
      rw [List.filter_cons_of_pos this]; exact ht
  induction t generalizing p with
  | nil => rfl
  | cons c t ih =>
    by_cases hc : c = ' '
    · subst hc
      have : P ' ' = true := by
        cases h2 : P ' ' with
        | true => rfl
        | false => exact absurd rfl (hP _ h2).1
      simp only [spOk, if_true, Bool.and_eq_true] at h
      rw [List.filter_cons_of_pos this]
      simp only [spOk, if_true, Bool.and_eq_true]
      exact ⟨⟨h.1.1, hhead t h.1.2⟩, ih h.2⟩
    · simp only [spOk, hc, if_false] at h
      cases hPc : P c with
      | true =>
        rw [List.filter_cons_of_pos hPc]
        simp only [spOk, hc, if_false]
        exact ih h
      | false =>
        rw [List.filter_cons_of_neg (by simp [hPc])]
        rw [(hP c hPc).2] at h
        exact spOk_mono (by simp) _ (ih h)

theorem spOk_compose (t : Str) {p : Bool} (h : spOk p t = true) : spOk p (composeMarks t) = true := by
  induction t using compose_induction generalizing p with
  | h0 => rfl
  | h1 a => exact h
  | h2 a m t b hv ih =>
    rw [compose_hit hv]
    obtain ⟨ha, hm, hb, ha', hm', hb', -⟩ := voiced_facts hv
    have e : spOk p (a :: m :: t) = spOk false t := by simp [spOk, ha', hm', hm]
    rw [e] at h
    have e2 : spOk p (b :: composeMarks t) = spOk false (composeMarks t) := by rw [spOk]; simp [hb', hb]
    rw [e2]; exact ih h
  | h3 a m t hv ih =>
    rw [compose_keep hv]
    have e : ∀ s, spOk p (a :: s) = if a = ' ' then p && alnumB s.head? && spOk false s
      else spOk (isAsciiAlphanumeric a) s := fun s => by rw [spOk]
    rw [e] at h ⊢
    rw [compose_alnumB]
    split
    · rename_i ha
      rw [if_pos ha] at h
      simp only [Bool.and_eq_true] at h ⊢
      exact ⟨h.1, ih h.2⟩
    · rename_i ha
      rw [if_neg ha] at h
      exact ih h

theorem alnum_choonpu : isAsciiAlphanumeric 'ー' = false := by decide +kernel

theorem spOk_squeeze (t : Str) {p : Bool} (h : spOk p t = true) : spOk p (squeeze 'ー' t) = true := by
  induction t generalizing p with
  | nil => rfl
  | cons c t ih =>
    rw [squeeze]
    split
    · rename_i hc
      obtain ⟨rfl, hh⟩ := hc
      rw [spOk, if_neg (by decide), alnum_choonpu] at h
      exact spOk_mono (by simp) _ (ih h)
    · rw [spOk] at h ⊢
      split
      · rename_i hc
        rw [if_pos hc] at h
        rw [squeeze_head]
        simp only [Bool.and_eq_true] at h ⊢
        exact ⟨h.1, ih h.2⟩
      · rename_i hc
        rw [if_neg hc] at h
        exact ih h

/-! ## The meaning of `Neologdn::modify` -/

theorem tilde_facts (c : Char) (h : decide (c ∉ tildeChars) = false) :
    c ≠ ' ' ∧ isAsciiAlphanumeric c = false := by
  have h1 : ∀ c ∈ tildeChars, c ≠ ' ' ∧ isAsciiAlphanumeric c = false := by decide +kernel
  exact h1 c (by simpa using h)

theorem tildes_eliminator (t : Str) : (CharacterEliminator.fromChars tildes).modify t =
    t.filter (· ∉ tildeChars) := by
  rw [eliminator_eq]
  apply List.filter_congr
  intro c _
  rw [Bool.eq_iff_iff]
  simp only [mem_fromChars, decide_eq_true_eq]
  exact Iff.rfl

theorem spacesOk_spec (t : Str) :
    SpacesOk (composeMarks ((spaceRule t).filter (· ∉ tildeChars))) := by
  rw [spacesOk_iff]
  exact spOk_compose _ (spOk_filter _ tilde_facts _ (by rw [← spacesOk_iff, ← dotted_eq]; exact dotted_spacesOk t))

/-- `Neologdn::new` succeeds, and its parts mean what the specification says. -/
theorem neologdn_new (σ : Oracle) : ∃ x, Neologdn.new σ = .ok x ∧
    (∀ τ t, x.characterConverter.modify τ t = .ok (t.map neologdnFold)) ∧
    (∀ τ t, x.modify τ t = .ok (neologdnSpec t)) ∧
    (∀ τ t, x.modifyWithPositions τ t = .ok ⟨.neologdn x, neologdnSpec t, []⟩) := by
  obtain ⟨cv, h1, h2⟩ := fromTables_one_ok _ (neologdn_nonempty σ)
  have hcv : ∀ τ t, cv.modify τ t = .ok (t.map neologdnFold) := by
    intro τ t; rw [modify_eq, h2, neologdn_substitute]
  refine ⟨_, by simp [Neologdn.new, h1]; rfl, hcv, ?_, ?_⟩
  · intro τ t
    simp only [Neologdn.modify, hcv, Outcome.ok_bind, reducer_eq, dotted_eq, tildes_eliminator, ligature_eq,
      Outcome.pure_eq]
    congr 1
    rw [← dotted_eq, dotted_fix (spacesOk_spec _)]
    rfl
  · intro τ t
    obtain ⟨ps, hp, -⟩ := modifyWithPositions_eq cv τ t
    have h3 : ∀ t, ∃ ps, (ConsecutiveCharacterReducer.mk 'ー').modifyWithPositions t =
        .ok ⟨.consecutiveCharacterReducer ⟨'ー'⟩, squeeze 'ー' t, ps⟩ := by
      intro t
      obtain ⟨s0, segs, rfl, h0, hok⟩ := exists_runs 'ー' t
      exact ⟨_, reducer_positions ⟨'ー'⟩ s0 segs h0 hok⟩
    obtain ⟨ps2, hp2⟩ := h3 (t.map neologdnFold)
    simp only [Neologdn.modifyWithPositions, hp, h2, neologdn_substitute, Outcome.ok_bind, hp2,
      dottedModifyWithPositions, CharacterEliminator.modifyWithPositions,
      LigatureTranslator.modifyWithPositions, dotted_eq, tildes_eliminator, ligature_eq,
      Outcome.pure_eq]
    rfl

/-! ## Normal texts -/

/-- What every neologdn result satisfies. -/
structure Normal (t : Str) : Prop where
  folded : ∀ c ∈ t, neologdnFold c = c ∧ c ∉ tildeChars
  spaces : SpacesOk t
  composed : composeMarks t = t

theorem neologdnFold_idem (c : Char) : neologdnFold (neologdnFold c) = neologdnFold c := by
  have hcodes : ∀ n ∈ presetCodes, neologdnFold (neologdnFold (Char.ofNat n)) = neologdnFold (Char.ofNat n) := by
    decide +kernel
  by_cases h : presetFold c = c
  · by_cases h1 : c = '＝'
    · subst h1; decide +kernel
    · by_cases h2 : c ∈ choonpuVariants
      · have : neologdnFold c = 'ー' := by simp [neologdnFold, h1, h2]
        rw [this]; decide +kernel
      · by_cases h3 : c ∈ hyphenVariants
        · have : neologdnFold c = '-' := by simp [neologdnFold, h1, h2, h3]
          rw [this]; decide +kernel
        · have : neologdnFold c = c := by simp [neologdnFold, h1, h2, h3, h]
          rw [this, this]
  · have := hcodes _ (presetFold_ne h)
    rwa [char_ofNat_toNat] at this

theorem compose_mem {t : Str} {c : Char} (h : c ∈ composeMarks t) :
    c ∈ t ∨ ∃ a m, voiced a m = some c := by
  induction t using compose_induction with
  | h0 => simp [compose_nil] at h
  | h1 a => left; exact h
  | h2 a m t b hv ih =>
    rw [compose_hit hv] at h
    rcases List.mem_cons.mp h with rfl | h
    · right; exact ⟨a, m, hv⟩
    · rcases ih h with h | h
      · left; simp [h]
      · right; exact h
  | h3 a m t hv ih =>
    rw [compose_keep hv] at h
    rcases List.mem_cons.mp h with rfl | h
    · left; simp
    · rcases ih h with h | h
      · left; simp only [List.mem_cons] at h ⊢; exact .inr h
      · right; exact h

/-- No composable pair: `composeMarks` does nothing. -/
theorem compose_fix {t : Str} (h : ∀ u a m v, t = u ++ a :: m :: v → voiced a m = none) :
    composeMarks t = t := by
  induction t using compose_induction with
  | h0 => rfl
  | h1 a => rfl
  | h2 a m t b hv _ => rw [h [] a m t rfl] at hv; cases hv
  | h3 a m t hv ih =>
    rw [compose_keep hv, ih]
    intro u a' m' v e
    exact h (a :: u) a' m' v (by rw [e]; rfl)

theorem compose_no_pair (t u v : Str) (a m : Char) (h : composeMarks t = u ++ a :: m :: v) :
    voiced a m = none := by
  induction t using compose_induction generalizing u with
  | h0 => simp [compose_nil] at h
  | h1 b =>
    have := congrArg List.length h
    simp [compose_one] at this
    omega
  | h2 x y t b hv ih =>
    rw [compose_hit hv] at h
    cases u with
    | nil =>
      simp only [List.nil_append, List.cons.injEq] at h
      obtain ⟨rfl, -⟩ := h
      cases hv2 : voiced b m with
      | none => rfl
      | some d =>
        obtain ⟨-, -, -, -, -, -, -, -, -, -, -, -, -, -, h5, h6⟩ := voiced_facts hv
        rcases voiced_mark hv2 with rfl | rfl
        · rw [h5] at hv2; cases hv2
        · rw [h6] at hv2; cases hv2
    | cons e u =>
      simp only [List.cons_append, List.cons.injEq] at h
      exact ih u h.2
  | h3 x y t hv ih =>
    rw [compose_keep hv] at h
    cases u with
    | cons e u =>
      simp only [List.cons_append, List.cons.injEq] at h
      exact ih u h.2
    | nil =>
      simp only [List.nil_append, List.cons.injEq] at h
      obtain ⟨rfl, h⟩ := h
      cases t with
      | nil =>
        simp only [compose_one, List.cons.injEq] at h
        rw [← h.1]; exact hv
      | cons z t =>
        cases hv2 : voiced y z with
        | none =>
          rw [compose_keep hv2, List.cons.injEq] at h
          rw [← h.1]; exact hv
        | some b =>
          rw [compose_hit hv2, List.cons.injEq] at h
          rw [← h.1]
          obtain ⟨-, -, -, -, -, -, -, -, -, -, -, h1, h2, -⟩ := voiced_facts hv2
          exact voiced_none h1 h2

theorem compose_idem (t : Str) : composeMarks (composeMarks t) = composeMarks t :=
  compose_fix fun u a m v e => compose_no_pair t u v a m e

theorem dGo_mem {t : Str} {p sp : Bool} {c : Char} (h : c ∈ dGo p sp t) : c ∈ t ∨ c = ' ' := by
  induction t generalizing p sp with
  | nil => simp [dGo] at h
  | cons a t ih =>
    rw [dGo] at h
    split at h
    · rcases ih h with h | h
      · left; simp [h]
      · right; exact h
    · rw [List.mem_append, List.mem_cons] at h
      rcases h with h | h | h
      · right
        split at h
        · simpa using h
        · simp at h
      · left; simp [h]
      · rcases ih h with h | h
        · left; simp [h]
        · right; exact h

theorem spec_normal (t : Str) : Normal (neologdnSpec t) where
  spaces := spacesOk_spec _
  composed := compose_idem _
  folded := by
    intro c hc
    rcases compose_mem hc with h | ⟨a, m, hv⟩
    · rw [List.mem_filter] at h
      refine ⟨?_, by simpa using h.2⟩
      have h1 := h.1
      rw [← dotted_eq, dotted_eq_dGo] at h1
      rcases dGo_mem h1 with h1 | rfl
      · obtain ⟨d, -, rfl⟩ := List.mem_map.mp (squeeze_mem h1)
        exact neologdnFold_idem d
      · decide +kernel
    · obtain ⟨-, -, -, -, -, -, -, -, -, h1, h2, -⟩ := voiced_facts hv
      exact ⟨h2, h1⟩

theorem squeeze_compose_fix {t : Str} (h : composeMarks t = t) :
    composeMarks (squeeze 'ー' t) = squeeze 'ー' t := by
  induction t with
  | nil => rfl
  | cons a t ih =>
    have ht : composeMarks t = t := by
      cases t with
      | nil => rfl
      | cons m t =>
        cases hv : voiced a m with
        | none =>
          rw [compose_keep hv] at h
          exact (List.cons.inj h).2
        | some b =>
          have h1 := compose_no_pair _ [] t a m h
          rw [h1] at hv; cases hv
    rw [squeeze]
    split
    · exact ih ht
    · apply compose_fix
      intro u x m v e
      cases u with
      | cons y u =>
        simp only [List.cons_append, List.cons.injEq] at e
        exact compose_no_pair (squeeze 'ー' t) u v x m (by rw [ih ht, e.2])
      | nil =>
        simp only [List.nil_append, List.cons.injEq] at e
        obtain ⟨rfl, e⟩ := e
        have h1 : t.head? = some m := by rw [← squeeze_head 'ー' t, e]; rfl
        cases t with
        | nil => simp at h1
        | cons n t =>
          simp only [List.head?_cons, Option.some.injEq] at h1
          subst h1
          exact compose_no_pair _ [] t a n h

theorem spaceRule_fix {t : Str} (h : SpacesOk t) : spaceRule t = t := by
  rw [← dotted_eq]; exact dotted_fix h

/-- On a normal text neologdn only collapses runs of `ー`, and the result is normal again. -/
theorem normal_spec {t : Str} (h : Normal t) :
    neologdnSpec t = squeeze 'ー' t ∧ Normal (squeeze 'ー' t) := by
  have h1 : t.map neologdnFold = t := by
    conv => rhs; rw [← List.map_id t]
    exact List.map_congr_left fun c hc => (h.folded c hc).1
  have h2 : SpacesOk (squeeze 'ー' t) := by
    rw [spacesOk_iff]; exact spOk_squeeze t ((spacesOk_iff t).mp h.spaces)
  have h3 : (squeeze 'ー' t).filter (· ∉ tildeChars) = squeeze 'ー' t := by
    rw [List.filter_eq_self]
    intro c hc
    simpa using (h.folded c (squeeze_mem hc)).2
  refine ⟨?_, ⟨fun c hc => h.folded c (squeeze_mem hc), h2, squeeze_compose_fix h.composed⟩⟩
  rw [neologdnSpec, h1, spaceRule_fix h2, h3, squeeze_compose_fix h.composed]

/-! ## Adjacent `ー` in the result -/

/-- Two adjacent `ー`; `p`: the previous character was `ー`. -/
def pairA : Bool → Str → Bool
  | _, [] => false
  | p, c :: t => if c = 'ー' then p || pairA true t else pairA false t

theorem pairA_iff (t : Str) (p : Bool) : pairA p t = true ↔
    (p = true ∧ t.head? = some 'ー') ∨ ∃ u v, t = u ++ 'ー' :: 'ー' :: v := by
  induction t generalizing p with
  | nil => simp [pairA]
  | cons c t ih =>
    rw [pairA]
    have hcons : (∃ u v, c :: t = u ++ 'ー' :: 'ー' :: v) ↔
        (c = 'ー' ∧ t.head? = some 'ー') ∨ ∃ u v, t = u ++ 'ー' :: 'ー' :: v := by
      constructor
      · rintro ⟨u, v, e⟩
        cases u with
        | nil => simp only [List.nil_append, List.cons.injEq] at e; left; simp [e]
        | cons d u => simp only [List.cons_append, List.cons.injEq] at e; right; exact ⟨u, v, e.2⟩
      · rintro (⟨rfl, h⟩ | ⟨u, v, rfl⟩)
        · cases t with
          | nil => simp at h
          | cons d t => simp at h; subst h; exact ⟨[], t, rfl⟩
        · exact ⟨c :: u, v, rfl⟩
    rw [hcons]
    by_cases hc : c = 'ー'
    · simp [hc, ih]
    · simp [hc, ih]

/-- Characters removed after the reduction step. -/
def removable (c : Char) : Bool := c = ' ' || c ∈ tildeChars

/-- Two `ー` with only removable characters between them; `p`: such a `ー` came before. -/
def gapB : Bool → Str → Bool
  | _, [] => false
  | p, c :: t => if c = 'ー' then p || gapB true t else if removable c then gapB p t else gapB false t

theorem gapB_eq (s : Str) (p q sp : Bool) :
    pairA p ((dGo q sp s).filter (· ∉ tildeChars)) = gapB p s := by
  induction s generalizing p q sp with
  | nil => rfl
  | cons c s ih =>
    rw [dGo, gapB]
    by_cases hc : c = ' '
    · subst hc
      rw [if_pos rfl, if_neg (by decide), if_pos (by decide), ih]
    · rw [if_neg hc]
      by_cases hb : (q && sp && isAsciiAlphanumeric c) = true
      · have ha : isAsciiAlphanumeric c = true := by
          simp only [Bool.and_eq_true] at hb; exact hb.2
        have h1 : c ≠ 'ー' := by rintro rfl; rw [alnum_choonpu] at ha; cases ha
        have h2 : c ∉ tildeChars := by
          intro h
          have := (tilde_facts c (by simpa using h)).2
          rw [this] at ha; cases ha
        rw [if_pos hb, if_neg h1, if_neg (by simp [removable, hc, h2])]
        have e : ([' '] ++ c :: dGo (isAsciiAlphanumeric c) false s).filter (· ∉ tildeChars) =
            ' ' :: c :: (dGo (isAsciiAlphanumeric c) false s).filter (· ∉ tildeChars) := by
          rw [List.singleton_append, List.filter_cons_of_pos (by decide),
            List.filter_cons_of_pos (by simpa using h2)]
        rw [e, pairA, if_neg (by decide), pairA, if_neg h1, ih]
      · rw [if_neg hb, List.nil_append]
        by_cases ht : c ∈ tildeChars
        · have h1 : c ≠ 'ー' := by rintro rfl; exact absurd ht (by decide)
          rw [List.filter_cons_of_neg (by simpa using ht), ih, if_neg h1, if_pos (by simp [removable, ht])]
        · rw [List.filter_cons_of_pos (by simpa using ht), pairA]
          split
          · rw [ih]
          · rw [if_neg (by simp [removable, hc, ht]), ih]

theorem pairA_compose (t : Str) (p : Bool) : pairA p (composeMarks t) = pairA p t := by
  induction t using compose_induction generalizing p with
  | h0 => rfl
  | h1 a => rfl
  | h2 a m t b hv ih =>
    obtain ⟨-, -, -, -, -, -, h1, h2, h3, -⟩ := voiced_facts hv
    rw [compose_hit hv, pairA, if_neg h3, ih]
    rw [pairA, if_neg h1, pairA, if_neg h2]
  | h3 a m t hv ih =>
    rw [compose_keep hv, pairA, ih, ih]
    conv => rhs; rw [pairA]

/-- As `gapB` before the reduction; state 1: after `ー`, 2: after `ー` and removable characters. -/
def gapN : Nat → Str → Bool
  | _, [] => false
  | st, c :: t =>
    if c = 'ー' then st == 2 || gapN 1 t
    else if removable c then gapN (if st = 0 then 0 else 2) t
    else gapN 0 t

theorem gapN_eq (w : Str) :
    gapN 0 w = gapB false (squeeze 'ー' w) ∧ gapN 2 w = gapB true (squeeze 'ー' w) ∧
    gapN 1 w = gapB (w.head? ≠ some 'ー') (squeeze 'ー' w) := by
  induction w with
  | nil => simp [gapN, gapB, squeeze]
  | cons c t ih =>
    obtain ⟨h0, h2, h1⟩ := ih
    rw [squeeze]
    by_cases hc : c = 'ー'
    · subst hc
      by_cases ht : t.head? = some 'ー'
      · have hg : gapB true (squeeze 'ー' t) = true := by
          have := squeeze_head 'ー' t
          rw [ht] at this
          cases hs : squeeze 'ー' t with
          | nil => rw [hs] at this; simp at this
          | cons d s => rw [hs] at this; simp at this; subst this; simp [gapB]
        simp only [ht, ne_eq, not_true_eq_false, decide_false] at h1
        simp [gapN, ht, hg, h1]
      · simp only [ne_eq, ht, not_false_eq_true, decide_true] at h1
        simp [gapN, ht, gapB, h1]
    · simp only [hc, false_and, if_false, gapN, gapB]
      by_cases hr : removable c = true
      · simp [hr, h0, h2, hc]
      · simp [hr, h0]

theorem removable_choonpu : removable 'ー' = false := by decide

theorem gapN_iff (w : Str) :
    (gapN 0 w = true ↔ ∃ u x v, w = u ++ 'ー' :: (x ++ 'ー' :: v) ∧ x ≠ [] ∧ ∀ c ∈ x, removable c = true) ∧
    (gapN 1 w = true ↔ (∃ x v, w = x ++ 'ー' :: v ∧ x ≠ [] ∧ ∀ c ∈ x, removable c = true) ∨
      ∃ u x v, w = u ++ 'ー' :: (x ++ 'ー' :: v) ∧ x ≠ [] ∧ ∀ c ∈ x, removable c = true) ∧
    (gapN 2 w = true ↔ (∃ x v, w = x ++ 'ー' :: v ∧ ∀ c ∈ x, removable c = true) ∨
      ∃ u x v, w = u ++ 'ー' :: (x ++ 'ー' :: v) ∧ x ≠ [] ∧ ∀ c ∈ x, removable c = true) := by
  induction w with
  | nil => simp [gapN]
  | cons c t ih =>
    obtain ⟨h0, h1, h2⟩ := ih
    have hcons : (∃ u x v, c :: t = u ++ 'ー' :: (x ++ 'ー' :: v) ∧ x ≠ [] ∧ ∀ c ∈ x, removable c = true) ↔
        (c = 'ー' ∧ ∃ x v, t = x ++ 'ー' :: v ∧ x ≠ [] ∧ ∀ c ∈ x, removable c = true) ∨
        ∃ u x v, t = u ++ 'ー' :: (x ++ 'ー' :: v) ∧ x ≠ [] ∧ ∀ c ∈ x, removable c = true := by
      constructor
      · rintro ⟨u, x, v, e, hx⟩
        cases u with
        | nil => simp only [List.nil_append, List.cons.injEq] at e; left; exact ⟨e.1, x, v, e.2, hx⟩
        | cons d u => simp only [List.cons_append, List.cons.injEq] at e; right; exact ⟨u, x, v, e.2, hx⟩
      · rintro (⟨rfl, x, v, rfl, hx⟩ | ⟨u, x, v, rfl, hx⟩)
        · exact ⟨[], x, v, rfl, hx⟩
        · exact ⟨c :: u, x, v, rfl, hx⟩
    have hx2 : (∃ x v, c :: t = x ++ 'ー' :: v ∧ ∀ c ∈ x, removable c = true) ↔
        c = 'ー' ∨ (removable c = true ∧ ∃ x v, t = x ++ 'ー' :: v ∧ ∀ c ∈ x, removable c = true) := by
      constructor
      · rintro ⟨x, v, e, hx⟩
        cases x with
        | nil => simp only [List.nil_append, List.cons.injEq] at e; left; exact e.1
        | cons d x =>
          simp only [List.cons_append, List.cons.injEq] at e
          obtain ⟨rfl, e⟩ := e
          right; exact ⟨hx c (by simp), x, v, e, fun d hd => hx d (by simp [hd])⟩
      · rintro (rfl | ⟨hc, x, v, rfl, hx⟩)
        · exact ⟨[], t, rfl, by simp⟩
        · refine ⟨c :: x, v, rfl, ?_⟩
          intro d hd
          rcases List.mem_cons.mp hd with rfl | hd
          · exact hc
          · exact hx d hd
    have hx1 : (∃ x v, c :: t = x ++ 'ー' :: v ∧ x ≠ [] ∧ ∀ c ∈ x, removable c = true) ↔
        (removable c = true ∧ ∃ x v, t = x ++ 'ー' :: v ∧ ∀ c ∈ x, removable c = true) := by
      constructor
      · rintro ⟨x, v, e, hne, hx⟩
        cases x with
        | nil => exact absurd rfl hne
        | cons d x =>
          simp only [List.cons_append, List.cons.injEq] at e
          obtain ⟨rfl, e⟩ := e
          exact ⟨hx c (by simp), x, v, e, fun d hd => hx d (by simp [hd])⟩
      · rintro ⟨hc, x, v, rfl, hx⟩
        refine ⟨c :: x, v, rfl, by simp, ?_⟩
        intro d hd
        rcases List.mem_cons.mp hd with rfl | hd
        · exact hc
        · exact hx d hd
    rw [hcons, hx1, hx2]
    by_cases hc : c = 'ー'
    · subst hc
      simp [gapN, h1, removable_choonpu]
    · by_cases hr : removable c = true
      · simp [gapN, hc, hr, h0, h2]
      · simp [gapN, hc, hr, h0]

theorem spec_pair_iff (t : Str) :
    (∃ u v, neologdnSpec t = u ++ 'ー' :: 'ー' :: v) ↔
      ∃ u x v, t.map neologdnFold = u ++ 'ー' :: (x ++ 'ー' :: v) ∧ x ≠ [] ∧
        ∀ c ∈ x, c = ' ' ∨ c ∈ tildeChars := by
  have h1 := pairA_iff (neologdnSpec t) false
  simp only [Bool.false_eq_true, false_and, false_or] at h1
  rw [← h1, neologdnSpec, pairA_compose, ← dotted_eq, dotted_eq_dGo, gapB_eq, ← (gapN_eq _).1,
    (gapN_iff _).1]
  simp [removable]

end Chanoma
