import Verif.Spec.Cut
import Verif.Proofs.Swap
import Verif.Props.Lines
/-! # Lemmas about texts cut into two pieces -/

namespace Chanoma

theorem getLast_app {u v : Str} (h : v ≠ []) : (u ++ v).getLast? = v.getLast? := by
  rw [List.getLast?_append, List.getLast?_eq_some_getLast h, Option.some_or]

theorem head_app {u v : Str} (h : u ≠ []) : (u ++ v).head? = u.head? := by
  cases u with
  | nil => exact absurd rfl h
  | cons c u => rfl

theorem snoc_induction {P : Str → Prop} (h0 : P []) (h1 : ∀ a c, P a → P (a ++ [c])) (a : Str) : P a := by
  suffices ∀ b : Str, P b.reverse by simpa using this a.reverse
  intro b
  induction b with
  | nil => exact h0
  | cons c b ih => rw [List.reverse_cons]; exact h1 _ _ ih

/-! ## The reducer -/

theorem squeeze_join {c : Char} {a b : Str} (ha : a.getLast? = some c) (hb : b.head? = some c) :
    squeeze c (a ++ b) = squeeze c a ++ (squeeze c b).tail := by
  obtain ⟨a, rfl⟩ : ∃ a', a = a' ++ [c] := by
    obtain ⟨a', h⟩ := List.getLast?_eq_some_iff.1 ha
    exact ⟨a', h⟩
  cases b with
  | nil => cases hb
  | cons d b =>
    cases hb
    clear ha
    have h1 : squeeze c (c :: c :: b) = squeeze c (c :: b) := by rw [squeeze, if_pos ⟨rfl, rfl⟩]
    have h2 : ∃ r, squeeze c (c :: b) = c :: r := by
      have := squeeze_head c (c :: b)
      cases h : squeeze c (c :: b) with
      | nil => rw [h] at this; cases this
      | cons x r => rw [h] at this; cases this; exact ⟨r, rfl⟩
    obtain ⟨r, hr⟩ := h2
    rw [List.append_assoc, List.singleton_append]
    induction a with
    | nil => rw [List.nil_append, List.nil_append, h1, hr]; simp [squeeze]
    | cons x a ih =>
      have e : (a ++ c :: c :: b).head? = (a ++ [c]).head? := by cases a <;> rfl
      rw [List.cons_append, List.cons_append, squeeze, squeeze, e]
      split
      · exact ih
      · rw [ih]; rfl

/-! ## The dotted-space rule -/

/-- The state of the dotted-space rule after a text. -/
def dAft (st : Bool × Bool) (a : Str) : Bool × Bool :=
  a.foldl (fun st c => if c = ' ' then (st.1, true) else (isAsciiAlphanumeric c, false)) st

theorem dGo_append (p sp : Bool) (a b : Str) :
    dGo p sp (a ++ b) = dGo p sp a ++ dGo (dAft (p, sp) a).1 (dAft (p, sp) a).2 b := by
  induction a generalizing p sp with
  | nil => rfl
  | cons c a ih =>
    rw [List.cons_append, dGo, dGo]
    by_cases hc : c = ' '
    · simp only [hc, if_true, ih, dAft, List.foldl_cons]
    · simp only [hc, if_false, ih, dAft, List.foldl_cons, List.append_assoc, List.cons_append]

theorem dAft_snoc (st : Bool × Bool) (a : Str) (c : Char) :
    dAft st (a ++ [c]) = if c = ' ' then ((dAft st a).1, true) else (isAsciiAlphanumeric c, false) := by
  simp [dAft, List.foldl_append]

theorem dAft_eq (a : Str) :
    ((dAft (false, false) a).1 = true ↔ IsAlnum (a.filter (· ≠ ' ')).getLast?) ∧
    ((dAft (false, false) a).2 = true ↔ a.getLast? = some ' ') := by
  induction a using snoc_induction with
  | h0 => simp [dAft, IsAlnum]
  | h1 a c ih =>
    rw [dAft_snoc]
    by_cases hc : c = ' '
    · subst hc
      simp [List.filter_append, ih.1]
    · simp [List.filter_append, hc, isAlnum_iff]

theorem dGo_start (p sp : Bool) (b : Str) :
    dGo p sp b = (if p = true ∧ (sp = true ∨ b.head? = some ' ') ∧ IsAlnum (b.filter (· ≠ ' ')).head?
      then [' '] else []) ++ dGo false false b := by
  induction b generalizing p sp with
  | nil => simp [dGo, IsAlnum]
  | cons c b ih =>
    by_cases hc : c = ' '
    · subst hc
      rw [dGo, dGo, if_pos rfl, if_pos rfl, ih p true, ih false true]
      simp
    · simp [dGo, hc, isAlnum_iff]
      simp [and_assoc]

open Classical in
theorem spaces_append (a b : Str) : dGo false false (a ++ b) =
    dGo false false a ++ ((if JoinedBySpace a b then [' '] else []) ++ dGo false false b) := by
  rw [dGo_append, dGo_start (dAft (false, false) a).1 (dAft (false, false) a).2 b]
  have e : ((dAft (false, false) a).1 = true ∧ ((dAft (false, false) a).2 = true ∨ b.head? = some ' ') ∧
      IsAlnum (b.filter (· ≠ ' ')).head?) ↔ JoinedBySpace a b := by
    rw [(dAft_eq a).1, (dAft_eq a).2]
    exact ⟨fun ⟨h1, h2, h3⟩ => ⟨h1, h3, h2⟩, fun ⟨h1, h2, h3⟩ => ⟨h1, h3, h2⟩⟩
  by_cases h : JoinedBySpace a b
  · rw [if_pos h, if_pos (e.2 h)]
  · rw [if_neg h, if_neg (fun h' => h (e.1 h'))]

theorem joined_squeeze (a b : Str) :
    JoinedBySpace (squeeze 'ー' a) (squeeze 'ー' b) ↔ JoinedBySpace a b := by
  have h1 : ∀ (t : Str) (st : Bool × Bool), dAft st (squeeze 'ー' t) = dAft st t := by
    intro t
    induction t with
    | nil => intro st; rfl
    | cons c t ih =>
      intro st
      by_cases h : c = 'ー' ∧ t.head? = some 'ー'
      · rw [squeeze, if_pos h, ih]
        cases t with
        | nil => cases h.2
        | cons d t =>
          obtain ⟨rfl, h⟩ := h
          cases h
          simp [dAft]
      · rw [squeeze, if_neg h]
        exact ih _
  have h2 : ∀ t : Str, ((squeeze 'ー' t).filter (· ≠ ' ')).head? = (t.filter (· ≠ ' ')).head? := by
    intro t
    induction t with
    | nil => rfl
    | cons c t ih =>
      by_cases h : c = 'ー' ∧ t.head? = some 'ー'
      · rw [squeeze, if_pos h, ih]
        cases t with
        | nil => cases h.2
        | cons d t =>
          obtain ⟨rfl, h⟩ := h
          cases h
          rfl
      · rw [squeeze, if_neg h]
        by_cases hc : c = ' '
        · subst hc
          simpa using ih
        · simp [hc]
  unfold JoinedBySpace
  rw [← (dAft_eq _).1, ← (dAft_eq _).2, h1, (dAft_eq _).1, (dAft_eq _).2, h2, squeeze_head]

/-! ## Sound marks -/

theorem compose_append_iff (a b : Str) : composeMarks (a ++ b) = composeMarks a ++ composeMarks b ↔
    ∀ x y, (composeMarks a).getLast? = some x → (composeMarks b).head? = some y → voiced x y = none := by
  induction a using compose_induction with
  | h0 => simp [compose_nil]
  | h1 a =>
    cases b with
    | nil => simp [compose_one, compose_nil]
    | cons y b =>
      rw [List.singleton_append, compose_one, List.singleton_append]
      cases hv : voiced a y with
      | some c =>
        have hy : composeMarks (y :: b) = y :: composeMarks b := by
          cases b with
          | nil => rfl
          | cons z b =>
            refine compose_keep ?_ b
            cases hz : voiced y z with
            | none => rfl
            | some d =>
              have h1 := voiced_mark hv
              have h2 := voiced_mark hz
              rcases h1 with rfl | rfl <;> rcases h2 with rfl | rfl <;> exact absurd hz (by simp [voiced])
        rw [compose_hit hv, hy]
        constructor
        · intro h
          have := congrArg List.length h
          simp at this
        · intro h
          have := h a y (by simp) (by simp)
          rw [hv] at this; cases this
      | none =>
        rw [compose_keep hv]
        refine ⟨fun _ x z hx hz => ?_, fun _ => rfl⟩
        cases hx
        cases b with
        | nil => cases hz; exact hv
        | cons w b =>
          cases hw : voiced y w with
          | none => rw [compose_keep hw] at hz; cases hz; exact hv
          | some d =>
            rw [compose_hit hw] at hz; cases hz
            have := voiced_facts hw
            exact voiced_none this.2.2.2.2.2.2.2.2.2.2.2.1 this.2.2.2.2.2.2.2.2.2.2.2.2.1
  | h2 a m t c hv ih =>
    rw [List.cons_append, List.cons_append, compose_hit hv, compose_hit hv, List.cons_append, List.cons_inj_right, ih]
    cases ht : composeMarks t with
    | nil =>
      simp only [List.getLast?_nil, List.getLast?_singleton]
      have := voiced_facts hv
      constructor
      · rintro - x y hx hy
        cases hx
        cases hd : voiced c y with
        | none => rfl
        | some d =>
          have h1 := this.2.2.2.2.2.2.2.2.2.2.2.2.2.2
          rcases voiced_mark hd with rfl | rfl
          · rw [h1.1] at hd; cases hd
          · rw [h1.2] at hd; cases hd
      · intro h x y hx; cases hx
    | cons d r => simp only [List.getLast?_cons_cons]
  | h3 a m t hv ih =>
    rw [List.cons_append, List.cons_append, compose_keep hv, compose_keep hv, List.cons_append, List.cons_inj_right]
    rw [List.cons_append] at ih
    rw [ih]
    cases ht : composeMarks (m :: t) with
    | nil =>
      exfalso
      cases t with
      | nil => cases ht
      | cons w t =>
        cases hw : voiced m w with
        | none => rw [compose_keep hw] at ht; cases ht
        | some d => rw [compose_hit hw] at ht; cases ht
    | cons d r => simp only [List.getLast?_cons_cons]

/-! ## Trim -/

theorem trim_append_iff (a b : Str) : trimModify (a ++ b) = trimModify a ++ trimModify b ↔
    CutAt a b .trim := by
  have blank : ∀ n, trimModify (List.replicate n ' ') = [] := by
    intro n
    obtain ⟨i, j, h1, h2, h3⟩ := trim_eq (List.replicate n ' ')
    generalize trimModify (List.replicate n ' ') = o at *
    cases o with
    | nil => rfl
    | cons c o =>
      have : c ∈ List.replicate n ' ' := by rw [h1]; simp
      rw [List.eq_of_mem_replicate this] at h2
      exact absurd rfl h2
  obtain ⟨i, j, ha, ha1, ha2⟩ := trim_eq a
  obtain ⟨k, l, hb, hb1, hb2⟩ := trim_eq b
  obtain ⟨m, n, hc, hc1, hc2⟩ := trim_eq (a ++ b)
  by_cases ea : trimModify a = []
  · rw [ea] at ha
    have ha' : a = List.replicate (i + j) ' ' := by rw [ha]; simp
    refine iff_of_true ?_ (Or.inl ?_)
    · rw [ea, List.nil_append]
      refine trim_unique (a := m) (b := n) (a' := i + j + k) (b' := l) ?_ hc1 hc2 hb1 hb2
      rw [← hc, ha']
      conv => lhs; rw [hb]
      simp [← List.append_assoc]
    · intro c hc; rw [ha'] at hc; exact List.eq_of_mem_replicate hc
  · by_cases eb : trimModify b = []
    · rw [eb] at hb
      have hb' : b = List.replicate (k + l) ' ' := by rw [hb]; simp
      refine iff_of_true ?_ (Or.inr (Or.inl ?_))
      · rw [eb, List.append_nil]
        refine trim_unique (a := m) (b := n) (a' := i) (b' := j + (k + l)) ?_ hc1 hc2 ha1 ha2
        rw [← hc, hb']
        conv => lhs; rw [ha]
        simp [List.append_assoc]
      · intro c hc; rw [hb'] at hc; exact List.eq_of_mem_replicate hc
    · have e : trimModify (a ++ b) =
          trimModify a ++ (List.replicate (j + k) ' ' ++ trimModify b) := by
        refine trim_unique (a := m) (b := n) (a' := i) (b' := l) ?_ hc1 hc2 ?_ ?_
        · rw [← hc]
          conv => lhs; rw [ha, hb]
          simp only [List.append_assoc, ← List.replicate_append_replicate]
        · rw [head_app ea]; exact ha1
        · rw [← List.append_assoc, getLast_app eb]; exact hb2
      rw [e, List.append_cancel_left_eq]
      have h1 : ¬ ∀ c ∈ a, c = ' ' := by
        intro h
        apply ea
        rw [List.eq_replicate_of_mem h, blank]
      have h2 : ¬ ∀ c ∈ b, c = ' ' := by
        intro h
        apply eb
        rw [List.eq_replicate_of_mem h, blank]
      simp only [CutAt, h1, h2, false_or]
      have h3 : a.getLast? = some ' ' ↔ j ≠ 0 := by
        rw [ha]
        cases j with
        | zero =>
          simp only [List.replicate_zero, List.append_nil, ne_eq, not_true_eq_false, iff_false]
          rw [getLast_app ea]; exact ha2
        | succ j => rw [List.replicate_succ']; simp
      have h4 : b.head? = some ' ' ↔ k ≠ 0 := by
        rw [hb]
        cases k with
        | zero =>
          simp only [List.replicate_zero, List.nil_append, ne_eq, not_true_eq_false, iff_false]
          rw [head_app eb]; exact hb1
        | succ k => rw [List.replicate_succ]; simp
      simp only [ne_eq, h3, h4, Decidable.not_not]
      constructor
      · intro h
        have := congrArg List.length h
        simp at this; omega
      · rintro ⟨rfl, rfl⟩; rfl

/-! ## Neologdn -/

theorem neologdn_append_iff (a b : Str) : neologdnSpec (a ++ b) = neologdnSpec a ++ neologdnSpec b ↔
    CutAt a b .neologdn := by
  simp only [CutAt]
  unfold neologdnSpec
  simp only [List.map_append]
  generalize a.map neologdnFold = a
  generalize b.map neologdnFold = b
  have hS : ∀ t, spaceRule t = dGo false false t := fun t => by rw [← dotted_eq, dotted_eq_dGo]
  simp only [hS]
  by_cases h1 : a.getLast? = some 'ー' ∧ b.head? = some 'ー'
  · simp only [h1, and_self, not_true_eq_false, false_and, iff_false]
    rw [squeeze_join h1.1 h1.2]
    obtain ⟨a', ha'⟩ := List.getLast?_eq_some_iff.1 ((squeeze_last 'ー' a).trans h1.1)
    obtain ⟨r, hr⟩ : ∃ r, squeeze 'ー' b = 'ー' :: r := by
      have := squeeze_head 'ー' b
      rw [h1.2] at this
      cases h : squeeze 'ー' b with
      | nil => rw [h] at this; cases this
      | cons x r => rw [h] at this; cases this; exact ⟨r, rfl⟩
    have hn : isAsciiAlphanumeric 'ー' = false := by decide +kernel
    have hk : ∀ u v, dGo false false (u ++ 'ー' :: v) = dGo false false u ++ 'ー' :: dGo false false v :=
      fun u v => dGo_cut (by decide) hn u v false false
    have hv : ∀ x, voiced 'ー' x = none ∧ voiced x 'ー' = none := by
      intro x
      refine ⟨?_, voiced_none (by decide) (by decide)⟩
      cases h : voiced 'ー' x with
      | none => rfl
      | some d => exact absurd rfl (voiced_facts h).2.2.2.2.2.2.1
    have e0 := hk [] r
    have e1 := hk a' r
    have e2 := hk a' []
    rw [ha', hr, List.tail_cons, List.append_assoc, List.singleton_append, e1, e2]
    rw [List.nil_append] at e0
    rw [e0]
    have hf := Cuts.filter (sep := 'ー') (g := fun c => decide (c ∉ tildeChars)) (by decide)
    have hc := Cuts.compose hv
    have e3 := hf (dGo false false []) (dGo false false r)
    simp only [hf _ _] at e3 ⊢
    simp only [hc _ _] at e3 ⊢
    intro h
    have := congrArg List.length h
    simp [show dGo false false [] = [] from rfl, compose_nil] at this
  · rw [squeeze_append _ _ _ h1, spaces_append]
    simp only [h1, not_false_eq_true, true_and]
    by_cases h2 : JoinedBySpace a b
    · rw [if_pos ((joined_squeeze a b).2 h2)]
      simp only [h2, not_true_eq_false, false_and, iff_false]
      have hv : ∀ x, voiced ' ' x = none ∧ voiced x ' ' = none := by
        intro x
        refine ⟨?_, voiced_none (by decide) (by decide)⟩
        cases h : voiced ' ' x with
        | none => rfl
        | some d => exact absurd rfl (voiced_facts h).2.2.2.1
      have hf := Cuts.filter (sep := ' ') (g := fun c => decide (c ∉ tildeChars)) (by decide)
      simp only [List.singleton_append, hf _ _]
      rw [Cuts.compose hv _ _]
      intro h
      have := congrArg List.length h
      simp at this
    · rw [if_neg (fun h => h2 ((joined_squeeze a b).1 h)), List.nil_append, List.filter_append]
      simp only [h2, not_false_eq_true, true_and]
      exact compose_append_iff _ _

end Chanoma
