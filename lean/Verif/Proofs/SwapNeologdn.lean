import Verif.Spec.SwapNeologdn
import Verif.Proofs.Cut
import Verif.Props.Compare
import Verif.Props.Swap
/-! # Lemmas about exchanging modifiers with neologdn -/

namespace Chanoma

theorem spec_eq (t : Str) : neologdnSpec t =
    composeMarks ((dGo false false (squeeze 'ー' (t.map neologdnFold))).filter (· ∉ tildeChars)) := by
  rw [neologdnSpec, ← dotted_eq, dotted_eq_dGo]

theorem voiced_self (x : Char) : voiced x x = none := by
  cases h : voiced x x with
  | none => rfl
  | some z =>
    rcases voiced_mark h with rfl | rfl <;> exact absurd h (by simp [voiced])

theorem voiced_choonpu (x : Char) : voiced 'ー' x = none ∧ voiced x 'ー' = none := by
  refine ⟨?_, voiced_none (by decide) (by decide)⟩
  cases h : voiced 'ー' x with
  | none => rfl
  | some d => exact absurd rfl (voiced_facts h).2.2.2.2.2.2.1

theorem voiced_space (x : Char) : voiced ' ' x = none ∧ voiced x ' ' = none := by
  refine ⟨?_, voiced_none (by decide) (by decide)⟩
  cases h : voiced ' ' x with
  | none => rfl
  | some d => exact absurd rfl (voiced_facts h).2.2.2.1

/-! ## The reducer -/

theorem spec_double {c : Char} (h : MaySwapNeologdn (.reduce c)) (u v : Str) :
    neologdnSpec (u ++ c :: c :: v) = neologdnSpec (u ++ c :: v) := by
  rw [spec_eq, spec_eq]
  simp only [List.map_append, List.map_cons]
  generalize u.map neologdnFold = u
  generalize v.map neologdnFold = v
  rcases h with h | h | h
  · have hs := Cuts.squeeze (sep := ' ') (c := 'ー') (by decide)
    have hs2 := hs [] v
    rw [List.nil_append] at hs2
    rw [h, hs, hs, hs2, dGo_append, dGo_append]
    rfl
  · obtain ⟨f, hf⟩ : ∃ f, f = neologdnFold c := ⟨_, rfl⟩
    rw [← hf] at h ⊢
    have hp : f ≠ ' ' ∧ f ≠ 'ー' ∧ isAsciiAlphanumeric f = false :=
      (by decide +kernel : ∀ f ∈ tildeChars, f ≠ ' ' ∧ f ≠ 'ー' ∧ isAsciiAlphanumeric f = false) f h
    have hs := Cuts.squeeze (sep := f) (c := 'ー') (fun e => hp.2.1 e.symm)
    have hs2 := hs [] v
    rw [List.nil_append] at hs2
    have hd : ∀ a b, dGo false false (a ++ f :: b) = dGo false false a ++ f :: dGo false false b :=
      fun a b => dGo_cut hp.1 hp.2.2 a b false false
    have hd2 := hd [] (squeeze 'ー' v)
    rw [List.nil_append] at hd2
    rw [hs, hs, hs2, show squeeze 'ー' [] = [] from rfl, List.nil_append, hd, hd, hd2]
    simp [dGo, h]
  · rw [h.1]
    congr 3
    induction u with
    | nil => simp [squeeze]
    | cons x u ih =>
      have e : (u ++ 'ー' :: 'ー' :: v).head? = (u ++ 'ー' :: v).head? := by cases u <;> rfl
      rw [List.cons_append, List.cons_append, squeeze, squeeze, e, ih]

theorem spec_squeeze {c : Char} (h : MaySwapNeologdn (.reduce c)) (u t : Str) :
    neologdnSpec (u ++ squeeze c t) = neologdnSpec (u ++ t) := by
  induction t generalizing u with
  | nil => rfl
  | cons d t ih =>
    rw [squeeze]
    split
    · rename_i hd
      rw [ih, hd.1]
      cases t with
      | nil => cases hd.2
      | cons e t => cases hd.2; exact (spec_double h u t).symm
    · have := ih (u ++ [d])
      simpa using this

theorem squeeze_spec {c : Char} (h : MaySwapNeologdn (.reduce c)) (t : Str) :
    squeeze c (neologdnSpec t) = neologdnSpec t := by
  have hn := spec_normal t
  by_cases hc : c = ' '
  · subst hc
    have hsp := hn.spaces
    generalize neologdnSpec t = o at hsp
    suffices ∀ o : Str, (∀ u v, o ≠ u ++ ' ' :: ' ' :: v) → squeeze ' ' o = o by
      refine this o fun u v e => ?_
      have h2 := (hsp u (' ' :: v) e).2
      exact (by decide : ¬ IsAlnum (some ' ')) h2
    intro o ho
    induction o with
    | nil => rfl
    | cons d o ih =>
      rw [squeeze, if_neg, ih fun u v e => ho (d :: u) v (by rw [e]; rfl)]
      rintro ⟨rfl, h2⟩
      cases o with
      | nil => cases h2
      | cons e o => cases h2; exact ho [] o rfl
  · refine squeeze_not_mem fun hm => ?_
    obtain ⟨h1, h2⟩ := hn.folded c hm
    rw [MaySwapNeologdn, h1] at h
    rcases h with h | h | h
    · exact hc h
    · exact h2 h
    · exact h.2 h.1

theorem reduce_needed {c : Char} (h : ∀ t, neologdnSpec (squeeze c t) = squeeze c (neologdnSpec t)) :
    MaySwapNeologdn (.reduce c) := by
  refine Classical.byContradiction fun hn => ?_
  simp only [MaySwapNeologdn, not_or] at hn
  obtain ⟨h1, h2, h3⟩ := hn
  by_cases hc : neologdnFold c = c
  · rw [hc] at h1 h2
    have h4 : c ≠ '~' := fun e => h2 (by rw [e]; decide)
    have := h [c, '~', c]
    rw [show squeeze c [c, '~', c] = [c, '~', c] by simp [squeeze, Ne.symm h4], spec_eq] at this
    have e : neologdnFold '~' = '~' := by decide +kernel
    have e1 : squeeze 'ー' [c, '~', c] = [c, '~', c] := by
      rw [squeeze, if_neg (by simp), squeeze, if_neg (by simp), squeeze, if_neg (by simp)]; rfl
    have e2 : dGo false false [c, '~', c] = [c, '~', c] := by
      simp [dGo, h1, (by decide +kernel : isAsciiAlphanumeric '~' = false)]
    rw [show [c, '~', c].map neologdnFold = [c, '~', c] by simp [hc, e], e1, e2] at this
    have e3 : [c, '~', c].filter (· ∉ tildeChars) = [c, c] := by
      simp [h2, (by decide : '~' ∈ tildeChars)]
    rw [e3, compose_keep (voiced_self c), compose_one] at this
    simp [squeeze] at this
  · have h5 : neologdnFold c ≠ 'ー' := fun e => h3 ⟨e, fun e' => hc (by rw [e, e'])⟩
    have := h [c, c]
    rw [show squeeze c [c, c] = [c] by simp [squeeze], spec_eq, spec_eq] at this
    simp only [List.map_cons, List.map_nil] at this
    generalize neologdnFold c = f at *
    simp [squeeze, h5, dGo, h1, h2, compose_keep (voiced_self f), compose_one, hc] at this

/-! ## Short texts -/

/-- A character that stays visible. -/
def Vis (c : Char) : Prop := neologdnFold c ≠ ' ' ∧ neologdnFold c ∉ tildeChars

theorem spec_one {c : Char} (h : Vis c) : neologdnSpec [c] = [neologdnFold c] := by
  obtain ⟨h1, h2⟩ := h
  rw [spec_eq]
  simp only [List.map_cons, List.map_nil]
  generalize neologdnFold c = f at *
  simp [squeeze, dGo, h1, h2, compose_one]

theorem spec_one_gone {c : Char} (h : ¬ Vis c) : neologdnSpec [c] = [] := by
  rw [spec_eq]
  unfold Vis at h
  simp only [List.map_cons, List.map_nil]
  generalize neologdnFold c = f at *
  by_cases h1 : f = ' '
  · simp [squeeze, dGo, h1, compose_nil]
  · have h2 : f ∈ tildeChars := Classical.byContradiction fun h2 => h ⟨h1, h2⟩
    simp [squeeze, dGo, h1, h2, compose_nil]

theorem spec_two {a b : Char} (ha : Vis a) (hb : Vis b)
    (h : ¬ (neologdnFold a = 'ー' ∧ neologdnFold b = 'ー')) :
    neologdnSpec [a, b] = composeMarks [neologdnFold a, neologdnFold b] := by
  obtain ⟨h1, h2⟩ := ha
  obtain ⟨h3, h4⟩ := hb
  rw [spec_eq]
  simp only [List.map_cons, List.map_nil]
  generalize neologdnFold a = f at *
  generalize neologdnFold b = g at *
  have e : squeeze 'ー' [f, g] = [f, g] := by
    rw [squeeze, if_neg (by simpa using h), squeeze, if_neg (by simp)]; rfl
  rw [e]
  simp [dGo, h1, h2, h3, h4]

theorem spec_two_choonpu {a b : Char} (h : neologdnFold a = 'ー' ∧ neologdnFold b = 'ー') :
    neologdnSpec [a, b] = ['ー'] := by
  rw [spec_eq]
  simp only [List.map_cons, List.map_nil, h.1, h.2]
  decide +kernel

theorem spec_space {a b c : Char} (ha : Vis a) (hb : Vis b) (hc : neologdnFold c = ' ') :
    neologdnSpec [a, c, b] =
      if isAsciiAlphanumeric (neologdnFold a) = true ∧ isAsciiAlphanumeric (neologdnFold b) = true then
        composeMarks [neologdnFold a, ' ', neologdnFold b]
      else composeMarks [neologdnFold a, neologdnFold b] := by
  obtain ⟨h1, h2⟩ := ha
  obtain ⟨h3, h4⟩ := hb
  rw [spec_eq]
  simp only [List.map_cons, List.map_nil, hc]
  generalize neologdnFold a = f at *
  generalize neologdnFold b = g at *
  have e : squeeze 'ー' [f, ' ', g] = [f, ' ', g] := by
    rw [squeeze, if_neg (by simp), squeeze, if_neg (by simp), squeeze, if_neg (by simp)]; rfl
  rw [e]
  split
  · rename_i h
    simp [dGo, h1, h2, h3, h4, h, (by decide : ' ' ∉ tildeChars)]
  · rename_i h
    simp [dGo, h1, h2, h3, h4, h]

theorem spec_space_alnum {a b c : Char} (ha : Vis a) (hb : Vis b) (hc : neologdnFold c = ' ')
    (h : isAsciiAlphanumeric (neologdnFold a) = true ∧ isAsciiAlphanumeric (neologdnFold b) = true) :
    neologdnSpec [a, c, b] = [neologdnFold a, ' ', neologdnFold b] := by
  rw [spec_space ha hb hc, if_pos h, compose_keep (voiced_space _).2, compose_keep (voiced_space _).1, compose_one]

theorem spec_tilde {a b c : Char} (ha : Vis a) (hb : Vis b) (hc : neologdnFold c ∈ tildeChars) :
    neologdnSpec [a, c, b] = composeMarks [neologdnFold a, neologdnFold b] := by
  obtain ⟨h1, h2⟩ := ha
  obtain ⟨h3, h4⟩ := hb
  rw [spec_eq]
  simp only [List.map_cons, List.map_nil]
  generalize neologdnFold a = f at *
  generalize neologdnFold b = g at *
  generalize neologdnFold c = d at *
  have hp : d ≠ ' ' ∧ d ≠ 'ー' ∧ isAsciiAlphanumeric d = false :=
    (by decide +kernel : ∀ f ∈ tildeChars, f ≠ ' ' ∧ f ≠ 'ー' ∧ isAsciiAlphanumeric f = false) d hc
  have e : squeeze 'ー' [f, d, g] = [f, d, g] := by
    rw [squeeze, if_neg (by simp [hp.2.1]), squeeze, if_neg (by simp [hp.2.1]), squeeze, if_neg (by simp)]; rfl
  rw [e]
  simp [dGo, h1, h2, h3, h4, hp.1, hc]

theorem spec_three {a b c : Char} (ha : Vis a) (hb : Vis b) (hc : Vis c)
    (h : ¬ (neologdnFold a = 'ー' ∧ neologdnFold c = 'ー')) (h' : ¬ (neologdnFold c = 'ー' ∧ neologdnFold b = 'ー')) :
    neologdnSpec [a, c, b] = composeMarks [neologdnFold a, neologdnFold c, neologdnFold b] := by
  obtain ⟨h1, h2⟩ := ha
  obtain ⟨h3, h4⟩ := hb
  obtain ⟨h5, h6⟩ := hc
  rw [spec_eq]
  simp only [List.map_cons, List.map_nil]
  generalize neologdnFold a = f at *
  generalize neologdnFold b = g at *
  generalize neologdnFold c = d at *
  have e : squeeze 'ー' [f, d, g] = [f, d, g] := by
    rw [squeeze, if_neg (by simpa using h), squeeze, if_neg (by simpa using h'), squeeze, if_neg (by simp)]; rfl
  rw [e]
  simp [dGo, h1, h2, h3, h4, h5, h6]

theorem alnum_kept {c : Char} (h : IsAlnum (some c)) : neologdnFold c = c ∧ Vis c := by
  have h0 : neologdnFold c = c := by
    refine Classical.byContradiction fun hn => ?_
    obtain ⟨i, hi, hf⟩ := neologdn_covered c hn
    have := (by decide +kernel : ∀ i ∈ neologdnConsts, ¬ IsAlnum i.from.head?) i hi
    rw [hf] at this; exact this h
  refine ⟨h0, ?_⟩
  unfold Vis
  rw [h0]
  refine ⟨?_, ?_⟩
  · rintro rfl; revert h; decide
  · intro hm
    exact (by decide +kernel : ∀ c ∈ tildeChars, ¬ IsAlnum (some c)) c hm h

/-! ## The converter -/

/-- The tildes written the same. -/
def oneTilde (x : Char) : Char := if x ∈ tildeChars then '~' else x

theorem oneTilde_facts (x : Char) : (oneTilde x = ' ' ↔ x = ' ') ∧ (oneTilde x = 'ー' ↔ x = 'ー') ∧
    isAsciiAlphanumeric (oneTilde x) = isAsciiAlphanumeric x ∧ (oneTilde x ∈ tildeChars ↔ x ∈ tildeChars) := by
  unfold oneTilde
  by_cases h : x ∈ tildeChars
  · rw [if_pos h]
    exact (by decide +kernel : ∀ x ∈ tildeChars, ('~' = ' ' ↔ x = ' ') ∧ ('~' = 'ー' ↔ x = 'ー') ∧
      isAsciiAlphanumeric '~' = isAsciiAlphanumeric x ∧ ('~' ∈ tildeChars ↔ x ∈ tildeChars)) x h
  · rw [if_neg h]; simp

theorem spec_oneTilde (t : Str) : neologdnSpec t =
    composeMarks ((dGo false false (squeeze 'ー' (t.map fun c => oneTilde (neologdnFold c)))).filter
      (· ∉ tildeChars)) := by
  rw [spec_eq, show (t.map fun c => oneTilde (neologdnFold c)) = (t.map neologdnFold).map oneTilde by simp,
    map_squeeze_comm (fun c => (oneTilde_facts c).2.1),
    map_dGo_comm (fun c => (oneTilde_facts c).1) (fun c => (oneTilde_facts c).2.2.1),
    map_filter_comm (fun c => (oneTilde_facts c).2.2.2)]
  congr 1
  conv => lhs; rw [← List.map_id (List.filter _ _)]
  refine List.map_congr_left fun c hc => ?_
  rw [List.mem_filter] at hc
  have : c ∉ tildeChars := by simpa using hc.2
  simp [oneTilde, this]

theorem respects_swap {g : Char → Char} (h : Respects g) (t : Str) :
    neologdnSpec (t.map g) = (neologdnSpec t).map g := by
  obtain ⟨hA, hB, hC, hD⟩ := h
  classical
  obtain ⟨G, hG⟩ : ∃ G : Char → Char, ∀ x, G x = if KeptChar x then g x else x := ⟨_, fun _ => rfl⟩
  have hk : ∀ {x}, KeptChar x → G x = g x := fun {x} hx => by rw [hG, if_pos hx]
  have hnk : ∀ {x}, ¬ KeptChar x → G x = x := fun {x} hx => by rw [hG, if_neg hx]
  have hgk : ∀ {x}, KeptChar x → KeptChar (g x) := by
    intro x hx
    have h1 := hB x (by rw [hx.1]; exact hx.2)
    rw [hx.1] at h1
    refine ⟨h1, fun hm => ?_⟩
    have := (hA x).1 (by rw [h1]; exact hm)
    rw [hx.1] at this
    exact hx.2 this
  have hsp : ∀ x, G x = ' ' ↔ x = ' ' := by
    intro x
    by_cases hx : KeptChar x
    · rw [hk hx]; exact (hC x hx).1
    · rw [hnk hx]
  have hch : ∀ x, G x = 'ー' ↔ x = 'ー' := by
    intro x
    by_cases hx : KeptChar x
    · rw [hk hx]; exact (hC x hx).2.1
    · rw [hnk hx]
  have hal : ∀ x, isAsciiAlphanumeric (G x) = isAsciiAlphanumeric x := by
    intro x
    by_cases hx : KeptChar x
    · rw [hk hx, Bool.eq_iff_iff, isAlnum_iff, isAlnum_iff]; exact (hC x hx).2.2
    · rw [hnk hx]
  have hti : ∀ x, G x ∈ tildeChars ↔ x ∈ tildeChars := by
    intro x
    by_cases hx : KeptChar x
    · rw [hk hx]; exact iff_of_false (hgk hx).2 hx.2
    · rw [hnk hx]
  have hma : KeptChar '゛' ∧ KeptChar '゜' := ⟨⟨by decide +kernel, by decide +kernel⟩, ⟨by decide +kernel, by decide +kernel⟩⟩
  have hva : ∀ {a m v}, voiced a m = some v → KeptChar a ∧ KeptChar m := by
    intro a m v hv
    have h0 := voiced_cases hv
    have h1 : ∀ r ∈ neologdnLigatures, ∀ a ∈ r.1, neologdnFold a = a ∧ a ∉ tildeChars := by decide +kernel
    exact ⟨h1 _ h0 a (by simp), h1 _ h0 m (by simp)⟩
  have hvo : ∀ a m, voiced (G a) (G m) = (voiced a m).map G := by
    intro a m
    by_cases ha : KeptChar a ∧ KeptChar m
    · rw [hk ha.1, hk ha.2, hD a m ha.1 ha.2]
      cases hv : voiced a m with
      | none => rfl
      | some v =>
        have hf := voiced_facts hv
        rw [Option.map_some, Option.map_some, hk ⟨hf.2.2.2.2.2.2.2.2.2.2.1, hf.2.2.2.2.2.2.2.2.2.1⟩]
    · have h1 : voiced a m = none := by
        cases hv : voiced a m with
        | none => rfl
        | some v => exact absurd (hva hv) ha
      rw [h1]
      cases hv : voiced (G a) (G m) with
      | none => rfl
      | some v =>
        exfalso
        obtain ⟨h2, h3⟩ := hva hv
        by_cases h4 : KeptChar a
        · by_cases h5 : KeptChar m
          · exact ha ⟨h4, h5⟩
          · rw [hnk h5] at h3; exact h5 h3
        · rw [hnk h4] at h2; exact h4 h2
  have key : (t.map g).map (fun c => oneTilde (neologdnFold c)) =
      (t.map fun c => oneTilde (neologdnFold c)).map G := by
    rw [List.map_map, List.map_map]
    refine List.map_congr_left fun c _ => ?_
    show oneTilde (neologdnFold (g c)) = G (oneTilde (neologdnFold c))
    by_cases hc : neologdnFold c ∈ tildeChars
    · rw [oneTilde, oneTilde, if_pos ((hA c).2 hc), if_pos hc, hnk]
      intro h; exact h.2 (by decide)
    · rw [oneTilde, oneTilde, if_neg (fun h => hc ((hA c).1 h)), if_neg hc, hB c hc,
        hk ⟨neologdnFold_idem c, hc⟩]
  rw [spec_oneTilde (t.map g), key, map_squeeze_comm hch, map_dGo_comm hsp hal, map_filter_comm hti, compose_map hvo,
    ← spec_oneTilde]
  exact List.map_congr_left fun c hc => hk ((spec_normal t).folded c hc)

theorem respects_needed {g : Char → Char} (H : ∀ t, neologdnSpec (t.map g) = (neologdnSpec t).map g) :
    Respects g := by
  have h1 : ∀ c, Vis c → Vis (g c) ∧ neologdnFold (g c) = g (neologdnFold c) := by
    intro c hc
    have h := H [c]
    rw [spec_one hc, List.map_cons, List.map_nil] at h
    by_cases hv : Vis (g c)
    · rw [spec_one hv] at h; simpa [hv] using h
    · rw [spec_one_gone hv] at h; cases h
  have ha : ∀ {x}, IsAlnum (some x) → ∀ c, neologdnFold c = ' ' →
      neologdnFold (g c) = ' ' ∧ g ' ' = ' ' ∧ IsAlnum (some (g x)) := by
    intro x hx c hc
    obtain ⟨hx0, hx1⟩ := alnum_kept hx
    have hx2 := (isAlnum_iff x).2 hx
    obtain ⟨hy1, hy2⟩ := h1 x hx1
    have h := H [x, c, x]
    rw [spec_space_alnum hx1 hx1 hc (by rw [hx0]; exact ⟨hx2, hx2⟩)] at h
    simp only [List.map_cons, List.map_nil] at h
    rw [hx0] at hy2 h
    have hgone := H [c]
    rw [spec_one_gone (fun hv => hv.1 hc), List.map_cons, List.map_nil] at hgone
    by_cases hg : neologdnFold (g c) = ' '
    · refine ⟨hg, ?_⟩
      rw [spec_space hy1 hy1 hg] at h
      split at h
      · rename_i hal
        rw [compose_keep (voiced_space _).2, compose_keep (voiced_space _).1, compose_one, hy2] at h
        rw [hy2] at hal
        simp only [List.cons.injEq] at h
        exact ⟨h.2.1.symm, (isAlnum_iff _).1 hal.1⟩
      · rw [compose_keep (voiced_self _), compose_one] at h
        exact absurd (congrArg List.length h) (by simp)
    · exfalso
      by_cases ht : neologdnFold (g c) ∈ tildeChars
      · rw [spec_tilde hy1 hy1 ht, compose_keep (voiced_self _), compose_one] at h
        exact absurd (congrArg List.length h) (by simp)
      · rw [spec_one ⟨hg, ht⟩] at hgone; cases hgone
  have hA : IsAlnum (some 'a') := by decide
  have hsp : g ' ' = ' ' := (ha hA ' ' (by decide +kernel)).2.1
  have hspf : neologdnFold ' ' = ' ' := by decide +kernel
  have hti : ∀ c, neologdnFold c ∈ tildeChars → neologdnFold (g c) ∈ tildeChars := by
    intro c hc
    obtain ⟨hx0, hx1⟩ := alnum_kept hA
    obtain ⟨hy1, hy2⟩ := h1 'a' hx1
    have hgone := H [c]
    rw [spec_one_gone (fun hv => hv.2 hc), List.map_cons, List.map_nil] at hgone
    refine Classical.byContradiction fun ht => ?_
    by_cases hg : neologdnFold (g c) = ' '
    · have h := H ['a', c, 'a']
      have hal := (isAlnum_iff _).2 (ha hA ' ' hspf).2.2
      rw [hx0] at hy2
      rw [spec_tilde hx1 hx1 hc] at h
      simp only [List.map_cons, List.map_nil] at h
      rw [spec_space_alnum hy1 hy1 hg (by rw [hy2]; exact ⟨hal, hal⟩), compose_keep (voiced_self _), compose_one] at h
      exact absurd (congrArg List.length h) (by simp)
    · rw [spec_one ⟨hg, ht⟩] at hgone; cases hgone
  have hkv : ∀ {c}, KeptChar c → c = ' ' ∨ Vis c := by
    intro c hc
    by_cases h : c = ' '
    · exact .inl h
    · exact .inr ⟨by rw [hc.1]; exact h, by rw [hc.1]; exact hc.2⟩
  have hgv : ∀ {c}, KeptChar c → Vis c → neologdnFold (g c) = g c ∧ Vis (g c) := by
    intro c hc hv
    obtain ⟨h2, h3⟩ := h1 c hv
    rw [hc.1] at h3
    exact ⟨h3, h2⟩
  have hcV : KeptChar 'ー' ∧ Vis 'ー' :=
    ⟨⟨by decide +kernel, by decide +kernel⟩, ⟨by decide +kernel, by decide +kernel⟩⟩
  have hch : g 'ー' = 'ー' := by
    obtain ⟨h2, h3⟩ := hgv hcV.1 hcV.2
    refine Classical.byContradiction fun hn => ?_
    have h := H ['ー', 'ー']
    rw [spec_two_choonpu ⟨hcV.1.1, hcV.1.1⟩] at h
    simp only [List.map_cons, List.map_nil] at h
    rw [spec_two h3 h3 (by rw [h2]; exact fun e => hn e.1), compose_keep (voiced_self _), compose_one] at h
    exact absurd (congrArg List.length h) (by simp)
  refine ⟨fun c => ⟨fun hc => ?_, hti c⟩, fun c hc => ?_, fun c hc => ⟨⟨fun e => ?_, fun e => ?_⟩, ⟨fun e => ?_, fun e => ?_⟩,
    ⟨fun e => ?_, fun e => ?_⟩⟩, fun a m hka hkm => ?_⟩
  · refine Classical.byContradiction fun hn => ?_
    by_cases hs : neologdnFold c = ' '
    · have := (ha hA c hs).1
      rw [this] at hc; revert hc; decide
    · exact (h1 c ⟨hs, hn⟩).1.2 hc
  · by_cases hs : neologdnFold c = ' '
    · rw [hs, hsp]; exact (ha hA c hs).1
    · exact (h1 c ⟨hs, hc⟩).2
  · rcases hkv hc with h | h
    · exact h
    · obtain ⟨h2, h3⟩ := hgv hc h
      exact absurd (h2.trans e) h3.1
  · rw [e, hsp]
  · rcases hkv hc with h | h
    · rw [h, hsp] at e; exact absurd e (by decide)
    · refine Classical.byContradiction fun hn => ?_
      have h4 := H [c, c]
      rw [spec_two h h (by rw [hc.1]; exact fun e => hn e.1), compose_keep (voiced_self _), compose_one] at h4
      simp only [List.map_cons, List.map_nil, e] at h4
      rw [spec_two_choonpu ⟨hcV.1.1, hcV.1.1⟩] at h4
      exact absurd (congrArg List.length h4) (by simp)
  · rw [e, hch]
  · rcases hkv hc with h | h
    · rw [h, hsp] at e; exact absurd e (by decide)
    · obtain ⟨h2, h3⟩ := hgv hc h
      refine Classical.byContradiction fun hn => ?_
      have h4 := H [c, ' ', c]
      have hn' : isAsciiAlphanumeric c ≠ true := fun h => hn ((isAlnum_iff c).1 h)
      have he := (isAlnum_iff _).2 e
      rw [spec_space h h hspf, if_neg (by rw [hc.1]; exact fun h => hn' h.1), compose_keep (voiced_self _), compose_one] at h4
      simp only [List.map_cons, List.map_nil, hsp] at h4
      rw [spec_space_alnum h3 h3 hspf (by rw [h2]; exact ⟨he, he⟩)] at h4
      exact absurd (congrArg List.length h4) (by simp)
  · exact (ha e ' ' hspf).2.2
  · rcases hkv hka with h | h
    · rw [h, hsp, (voiced_space _).1, (voiced_space _).1]; rfl
    · rcases hkv hkm with h' | h'
      · rw [h', hsp, (voiced_space _).2, (voiced_space _).2]; rfl
      · by_cases hcc : a = 'ー' ∧ m = 'ー'
        · rw [hcc.1, hcc.2, hch, (voiced_choonpu _).1]; rfl
        · obtain ⟨h2, h3⟩ := hgv hka h
          obtain ⟨h2', h3'⟩ := hgv hkm h'
          have h4 := H [a, m]
          rw [spec_two h h' (by rw [hka.1, hkm.1]; exact hcc), hka.1, hkm.1] at h4
          simp only [List.map_cons, List.map_nil] at h4
          by_cases hgg : g a = 'ー' ∧ g m = 'ー'
          · exfalso
            rw [spec_two_choonpu (by rw [h2, h2']; exact hgg)] at h4
            cases hv : voiced a m with
            | none =>
              rw [compose_keep hv, compose_one] at h4; exact absurd (congrArg List.length h4) (by simp)
            | some v =>
              rw [compose_hit hv, compose_nil] at h4
              have hf := voiced_facts hv
              have hkvv : KeptChar v := ⟨hf.2.2.2.2.2.2.2.2.2.2.1, hf.2.2.2.2.2.2.2.2.2.1⟩
              have hvv : Vis v := (hkv hkvv).resolve_left hf.2.2.2.2.2.1
              simp only [List.map_cons, List.map_nil, List.cons.injEq, and_true] at h4
              have h5 := H [v, v]
              rw [spec_two hvv hvv (by rw [hkvv.1]; exact fun e => hf.2.2.2.2.2.2.2.2.1 e.1),
                compose_keep (voiced_self _), compose_one] at h5
              simp only [List.map_cons, List.map_nil, ← h4] at h5
              rw [spec_two_choonpu ⟨hcV.1.1, hcV.1.1⟩] at h5
              exact absurd (congrArg List.length h5) (by simp)
          · rw [spec_two h3 h3' (by rw [h2, h2']; exact hgg), h2, h2'] at h4
            cases hv : voiced a m with
            | none =>
              rw [compose_keep hv, compose_one] at h4
              cases hw : voiced (g a) (g m) with
              | none => rfl
              | some w => rw [compose_hit hw, compose_nil] at h4; cases h4
            | some v =>
              rw [compose_hit hv, compose_nil] at h4
              cases hw : voiced (g a) (g m) with
              | none => rw [compose_keep hw, compose_one] at h4; exact absurd (congrArg List.length h4) (by simp)
              | some w =>
                rw [compose_hit hw, compose_nil] at h4
                simp only [List.map_cons, List.map_nil, List.cons.injEq, and_true] at h4
                rw [h4]; rfl

/-! ## The eliminator -/

theorem dGo_no_alnum {t : Str} (h : ∀ c ∈ t, isAsciiAlphanumeric c ≠ true) (sp : Bool) :
    dGo false sp t = t.filter (· ≠ ' ') := by
  induction t generalizing sp with
  | nil => rfl
  | cons c t ih =>
    have h1 : isAsciiAlphanumeric c = false := by
      cases hx : isAsciiAlphanumeric c with
      | false => rfl
      | true => exact absurd hx (h c (by simp))
    rw [dGo]
    by_cases hc : c = ' '
    · rw [if_pos hc, ih fun c hc => h c (by simp [hc])]; simp [hc]
    · rw [if_neg hc, h1, ih fun c hc => h c (by simp [hc])]; simp [hc]

theorem filter_compose {cs : List Char} (h : ∀ a m v, voiced a m = some v → a ∈ cs ∧ m ∈ cs ∧ v ∈ cs) (t : Str) :
    (composeMarks t).filter (fun c => c ∉ cs) = t.filter fun c => c ∉ cs := by
  induction t using compose_induction with
  | h0 => rfl
  | h1 a => rfl
  | h2 a m t b hv ih =>
    obtain ⟨h1, h2, h3⟩ := h a m b hv
    rw [compose_hit hv]
    simp [h1, h2, h3]
    simpa using ih
  | h3 a m t hv ih => rw [compose_keep hv, List.filter_cons, List.filter_cons, ih]

theorem deletes_swap {cs : List Char} (h : DeletesEnough cs) (t : Str) :
    neologdnSpec (t.filter fun c => c ∉ cs) = (neologdnSpec t).filter fun c => c ∉ cs := by
  obtain ⟨hA, hS, hC, hV, hL⟩ := h
  have swap : ∀ (p q : Char → Bool) (l : Str), (l.filter p).filter q = (l.filter q).filter p := by
    intro p q l; simp only [List.filter_filter, Bool.and_comm]
  have r : (neologdnSpec t).filter (fun c => c ∉ cs) =
      ((t.map neologdnFold).filter fun c => c ∉ cs).filter (· ∉ tildeChars) := by
    rw [spec_eq, filter_compose hV, swap, filter_dGo hS, filter_squeeze hC]
  have l0 : ∀ x ∈ (t.filter fun c => c ∉ cs).map neologdnFold, x ∈ tildeChars ∨ x = ' ' ∨ x ∉ cs := by
    intro x hx
    obtain ⟨c, hc, rfl⟩ := List.mem_map.1 hx
    have hc' : c ∉ cs := by simpa using (List.mem_filter.1 hc).2
    by_cases h1 : neologdnFold c = ' '
    · exact .inr (.inl h1)
    · by_cases h2 : neologdnFold c ∈ tildeChars
      · exact .inl h2
      · exact .inr (.inr fun h => hc' ((hA c h1 h2).1 h))
  have l1 : 'ー' ∉ (t.filter fun c => c ∉ cs).map neologdnFold := by
    intro hm
    rcases l0 _ hm with h | h | h
    · exact absurd h (by decide)
    · exact absurd h (by decide)
    · exact h hC
  have l2 : dGo false false ((t.filter fun c => c ∉ cs).map neologdnFold) =
      ((t.filter fun c => c ∉ cs).map neologdnFold).filter (· ≠ ' ') := by
    rcases hL with hL | hL
    · refine dGo_no_alnum (fun x hx hal => ?_) _
      have hal' := (isAlnum_iff x).1 hal
      rcases l0 _ hx with h | h | h
      · exact (by decide +kernel : ∀ x ∈ tildeChars, ¬ IsAlnum (some x)) x h hal'
      · rw [h] at hal; exact absurd hal (by decide)
      · exact h (hL x hal')
    · have hns : ' ' ∉ (t.filter fun c => c ∉ cs).map neologdnFold := by
        intro hm
        obtain ⟨c, hc, h1⟩ := List.mem_map.1 hm
        have hc' : c ∉ cs := by simpa using (List.mem_filter.1 hc).2
        exact hc' (hL c h1)
      rw [← dotted_eq_dGo, dotted_fix fun u v e => absurd (by rw [e]; simp) hns]
      symm
      rw [List.filter_eq_self]
      intro x hx
      simp only [ne_eq, decide_eq_true_eq]
      rintro rfl; exact hns hx
  rw [spec_eq, squeeze_not_mem l1, l2, r, compose_fix]
  · rw [List.filter_map, List.filter_filter, List.filter_map, List.filter_map, List.filter_filter, List.filter_map,
      List.filter_filter]
    congr 1
    refine List.filter_congr fun c _ => ?_
    rw [Bool.eq_iff_iff]
    simp only [Function.comp, ne_eq, Bool.and_eq_true, decide_eq_true_eq]
    constructor
    · rintro ⟨h1, h2, h3⟩
      exact ⟨h1, fun h => h3 ((hA c h2 h1).1 h)⟩
    · rintro ⟨h1, h2⟩
      have h3 : neologdnFold c ≠ ' ' := fun e => h2 (by rw [e]; exact hS)
      exact ⟨h1, h3, fun h => h2 ((hA c h3 h1).2 h)⟩
  · intro u a m v e
    cases hv : voiced a m with
    | none => rfl
    | some b =>
      exfalso
      have hm : a ∈ (((t.filter fun c => c ∉ cs).map neologdnFold).filter (· ≠ ' ')).filter (· ∉ tildeChars) := by
        rw [e]; simp
      obtain ⟨hm, h1⟩ := List.mem_filter.1 hm
      obtain ⟨hm, h2⟩ := List.mem_filter.1 hm
      rcases l0 _ hm with h | h | h
      · simp [h] at h1
      · simp [h] at h2
      · exact h (hV a m b hv).1

theorem deletes_needed {cs : List Char}
    (H : ∀ t, neologdnSpec (t.filter fun c => c ∉ cs) = (neologdnSpec t).filter fun c => c ∉ cs) :
    cs = [] ∨ DeletesEnough cs := by
  cases hcs : cs with
  | nil => exact .inl rfl
  | cons d cs' =>
  refine .inr ?_
  rw [← hcs]
  have hd : d ∈ cs := by simp [hcs]
  clear hcs
  have yes : ∀ {c}, c ∈ cs → ∀ t, (c :: t).filter (fun c => c ∉ cs) = t.filter fun c => c ∉ cs :=
    fun h t => by rw [List.filter_cons, if_neg (by simpa using h)]
  have no : ∀ {c}, c ∉ cs → ∀ t, (c :: t).filter (fun c => c ∉ cs) = c :: t.filter fun c => c ∉ cs :=
    fun h t => by rw [List.filter_cons, if_pos (by simpa using h)]
  have nil : ([] : Str).filter (fun c => c ∉ cs) = [] := rfl
  have nils : neologdnSpec [] = [] := by decide +kernel
  have hA : ∀ c, neologdnFold c ≠ ' ' → neologdnFold c ∉ tildeChars → (neologdnFold c ∈ cs ↔ c ∈ cs) := by
    intro c h1 h2
    have h := H [c]
    rw [spec_one ⟨h1, h2⟩] at h
    by_cases h3 : c ∈ cs <;> by_cases h4 : neologdnFold c ∈ cs
    · exact iff_of_true h4 h3
    · rw [yes h3, no h4, nil, nils] at h; cases h
    · rw [no h3, yes h4, nil, spec_one ⟨h1, h2⟩] at h; cases h
    · exact iff_of_false h4 h3
  have kept : ∀ c, KeptChar c → c ≠ ' ' → Vis c := fun c hc h => ⟨by rw [hc.1]; exact h, by rw [hc.1]; exact hc.2⟩
  have hva : ∀ {a m v}, voiced a m = some v → KeptChar a ∧ KeptChar m := by
    intro a m v hv
    have h0 := voiced_cases hv
    have h1 : ∀ r ∈ neologdnLigatures, ∀ a ∈ r.1, neologdnFold a = a ∧ a ∉ tildeChars := by decide +kernel
    exact ⟨h1 _ h0 a (by simp), h1 _ h0 m (by simp)⟩
  have hV : ∀ a m v, voiced a m = some v → (a ∈ cs ↔ m ∈ cs) ∧ (v ∈ cs ↔ m ∈ cs) := by
    intro a m v hv
    obtain ⟨ka, km⟩ := hva hv
    have ha : Vis a := kept a ka (by rintro rfl; rw [(voiced_space _).1] at hv; cases hv)
    have hm : Vis m := kept m km (by rintro rfl; rw [(voiced_space _).2] at hv; cases hv)
    have ht : neologdnSpec [a, m] = [v] := by
      rw [spec_two ha hm, ka.1, km.1, compose_hit hv, compose_nil]
      rw [ka.1]
      rintro ⟨rfl, -⟩; rw [(voiced_choonpu _).1] at hv; cases hv
    have h := H [a, m]
    rw [ht] at h
    by_cases h1 : a ∈ cs <;> by_cases h2 : m ∈ cs <;> by_cases h3 : v ∈ cs
    · simp [h1, h2, h3]
    · rw [yes h1, yes h2, no h3, nil, nils] at h; cases h
    · rw [yes h1, no h2, yes h3, nil, spec_one hm] at h; cases h
    · rw [yes h1, no h2, no h3, nil, spec_one hm, km.1, List.cons.injEq] at h
      obtain ⟨rfl, -⟩ := h
      have := (voiced_facts hv)
      simp [VoicedFacts] at this
      grind
    · rw [no h1, yes h2, yes h3, nil, spec_one ha] at h; cases h
    · rw [no h1, yes h2, no h3, nil, spec_one ha, ka.1, List.cons.injEq] at h
      obtain ⟨rfl, -⟩ := h
      have := (voiced_facts hv)
      simp [VoicedFacts] at this
      grind
    · rw [no h1, no h2, yes h3, nil, ht] at h; cases h
    · simp [h1, h2, h3]
  have hcf : neologdnFold 'ー' = 'ー' := by decide +kernel
  have hcv : Vis 'ー' := ⟨by decide +kernel, by decide +kernel⟩
  have hC : 'ー' ∈ cs := by
    refine Classical.byContradiction fun hn => ?_
    have h := H ['ー', d, 'ー']
    rw [no hn, yes hd, no hn, nil, spec_two_choonpu ⟨hcf, hcf⟩] at h
    have two : composeMarks ['ー', 'ー'] = ['ー', 'ー'] := by rw [compose_keep (voiced_self _), compose_one]
    by_cases h1 : neologdnFold d = ' '
    · rw [spec_space hcv hcv h1, hcf, if_neg (by decide), two, no hn, no hn, nil] at h
      cases h
    · by_cases h2 : neologdnFold d ∈ tildeChars
      · rw [spec_tilde hcv hcv h2, hcf, two, no hn, no hn, nil] at h
        cases h
      · have h3 := (hA d h1 h2).2 hd
        have h4 : neologdnFold d ≠ 'ー' := fun e => hn (by rw [← e]; exact h3)
        rw [spec_three hcv hcv ⟨h1, h2⟩ (fun e => h4 e.2) (fun e => h4 e.1), hcf, compose_keep (voiced_choonpu _).1,
          compose_keep (voiced_choonpu _).2, compose_one, no hn, yes h3, no hn, nil] at h
        cases h
  have facts : neologdnFold 'か' = 'か' ∧ neologdnFold '゛' = '゛' ∧ Vis 'か' ∧ Vis '゛' ∧ voiced 'か' '゛' = some 'が' ∧
      voiced 'は' '゛' = some 'ば' ∧ voiced 'は' '゜' = some 'ぱ' := by
    unfold Vis; decide +kernel
  have hM : '゛' ∈ cs := by
    refine Classical.byContradiction fun hn => ?_
    have hk : 'か' ∉ cs := fun h => hn ((hV _ _ _ facts.2.2.2.2.1).1.1 h)
    have h := H ['か', 'ー', '゛']
    rw [no hk, yes hC, no hn, nil, spec_two facts.2.2.1 facts.2.2.2.1 (by rw [facts.1]; decide), facts.1, facts.2.1,
      compose_hit facts.2.2.2.2.1, compose_nil,
      spec_three facts.2.2.1 facts.2.2.2.1 hcv (by rw [facts.1]; decide) (by rw [facts.2.1]; decide), facts.1, facts.2.1, hcf,
      compose_keep (voiced_choonpu _).2, compose_keep (voiced_choonpu _).1, compose_one, no hk, yes hC, no hn] at h
    cases h
  have hM' : '゜' ∈ cs := (hV _ _ _ facts.2.2.2.2.2.2).1.1 ((hV _ _ _ facts.2.2.2.2.2.1).1.2 hM)
  have four : ∀ {x c}, IsAlnum (some x) → neologdnFold c = ' ' → neologdnSpec [x, 'ー', c, x] = [x, 'ー', x] := by
    intro x c hx hc
    obtain ⟨hx0, hx1⟩ := alnum_kept hx
    have hx2 := (isAlnum_iff x).2 hx
    rw [spec_eq]
    simp only [List.map_cons, List.map_nil, hx0, hcf, hc]
    have h1 : x ≠ ' ' := fun e => hx1.1 (by rw [hx0, e])
    have h2 : x ∉ tildeChars := fun e => hx1.2 (by rw [hx0]; exact e)
    have e : squeeze 'ー' [x, 'ー', ' ', x] = [x, 'ー', ' ', x] := by
      have h3 : x ≠ 'ー' := by rintro rfl; revert hx; decide
      simp [squeeze, h3]
    rw [e]
    simp [dGo, h1, h2, hx2, (by decide : isAsciiAlphanumeric 'ー' = false), (by decide : 'ー' ∉ tildeChars)]
    rw [compose_keep (voiced_choonpu _).2, compose_keep (voiced_choonpu _).1, compose_one]
  have hL : (∀ c, IsAlnum (some c) → c ∈ cs) ∨ ∀ c, neologdnFold c = ' ' → c ∈ cs := by
    by_cases hall : ∀ c, IsAlnum (some c) → c ∈ cs
    · exact .inl hall
    · refine .inr fun c hc => ?_
      obtain ⟨x, hx⟩ := Classical.not_forall.1 hall
      obtain ⟨hx, hxn⟩ := Classical.not_imp.1 hx
      obtain ⟨hx0, hx1⟩ := alnum_kept hx
      have hx2 := (isAlnum_iff x).2 hx
      refine Classical.byContradiction fun hn => ?_
      have h := H [x, 'ー', c, x]
      rw [four hx hc, no hxn, yes hC, no hn, no hxn, nil, no hxn, yes hC, no hxn, nil,
        spec_space_alnum hx1 hx1 hc (by rw [hx0]; exact ⟨hx2, hx2⟩)] at h
      exact absurd (congrArg List.length h) (by simp)
  refine ⟨hA, ?_, hC, fun a m v hv => ?_, hL⟩
  · rcases hL with hL | hL
    · refine Classical.byContradiction fun hn => ?_
      have ha : 'a' ∈ cs := hL 'a' (by decide)
      have h := H ['a', ' ', 'a']
      rw [yes ha, no hn, yes ha, nil, show neologdnSpec [' '] = [] by decide +kernel,
        show neologdnSpec ['a', ' ', 'a'] = ['a', ' ', 'a'] by decide +kernel, yes ha, no hn] at h
      cases h
    · exact hL ' ' (by decide +kernel)
  · obtain ⟨h1, h2⟩ := hV a m v hv
    have hm : m ∈ cs := by rcases voiced_mark hv with rfl | rfl <;> assumption
    exact ⟨h1.2 hm, hm, h2.2 hm⟩

end Chanoma
