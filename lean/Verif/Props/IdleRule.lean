import Verif.Spec.IdleRule
import Verif.Props.Rest
import Verif.Props.Idle
import Verif.Props.Context
/-! # C113: when a ligature rule is superfluous beside another modifier -/

namespace Chanoma

theorem snoc_eq {k u v : Str} {d c : Char} (e : k ++ [d] = u ++ c :: v) (hc : c ≠ d) : ∃ v', v = v' ++ [d] ∧ k = u ++ c :: v' := by
  rcases List.eq_nil_or_concat v with rfl | ⟨v', x, rfl⟩
  · have := (List.append_inj' (s₁ := k) (t₁ := [d]) (s₂ := u) (t₂ := [c]) e rfl).2
    simp at this
    exact absurd this.symm hc
  · rw [List.concat_eq_append] at e ⊢
    have := List.append_inj' (s₁ := k) (t₁ := [d]) (s₂ := u ++ c :: v') (t₂ := [x]) (by simpa using e) rfl
    simp at this
    exact ⟨v', by rw [this.2], this.1⟩

theorem spacesOk_part {t k : Str} (h : SpacesOk t) (hk : k <:+: t) : SpacesOk (c! "1" ++ k ++ c! "1") := by
  obtain ⟨a, b, rfl⟩ := hk
  have h1 : IsAlnum (some '1') := by decide
  intro u v e
  cases u with
  | nil => exact absurd (List.cons.inj e).1 (by decide)
  | cons x u =>
    obtain ⟨rfl, e'⟩ := List.cons.inj (show '1' :: (k ++ ['1']) = x :: (u ++ ' ' :: v) from e)
    clear e
    obtain ⟨v', rfl, rfl⟩ := snoc_eq (k := k) e' (by decide)
    obtain ⟨h2, h3⟩ := h (a ++ u) (v' ++ b) (by simp)
    constructor
    · cases u with
      | nil => exact h1
      | cons y u =>
        have e1 : ∀ w : Str, (w ++ y :: u).getLast? = (y :: u).getLast? := fun w => by
          rw [List.getLast?_append]; simp [List.getLast?_cons]
        rw [e1] at h2
        rwa [show ('1' :: y :: u) = ['1'] ++ y :: u from rfl, e1]
    · cases v' with
      | nil => exact h1
      | cons y v' => exact h3

theorem voiced_one : (∀ m, voiced '1' m = none) ∧ ∀ a, voiced a '1' = none := by
  constructor
  · intro m
    unfold voiced
    split
    · decide +kernel
    · split
      · decide +kernel
      · rfl
  · intro a; rfl

theorem settled_part {t k : Str} (h : Settled t) (hk : k <:+: t) : Settled (c! "1" ++ k ++ c! "1") := by
  refine ⟨fun ch hch => ?_, spacesOk_part h.2.1 hk, fun u a m v e => ?_⟩
  · simp only [List.mem_append] at hch
    have h1 : ∀ ch ∈ c! "1", neologdnFold ch = ch ∧ ch ∉ tildeChars := by decide +kernel
    rcases hch with (hch | hch) | hch
    · exact h1 ch hch
    · exact h.1 ch (hk.subset hch)
    · exact h1 ch hch
  · obtain ⟨p, q, rfl⟩ := hk
    cases u with
    | nil => rw [← (List.cons.inj (show '1' :: (k ++ ['1']) = a :: m :: v from e)).1]; exact voiced_one.1 m
    | cons x u =>
      obtain ⟨-, e'⟩ := List.cons.inj (show '1' :: (k ++ ['1']) = x :: (u ++ a :: m :: v) from e)
      clear e
      by_cases hm : m = '1'
      · rw [hm]; exact voiced_one.2 a
      · obtain ⟨v', rfl, rfl⟩ := snoc_eq (k := k) (u := u ++ [a]) (by simpa using e') hm
        exact h.2.2 (p ++ u) a m (v' ++ q) (by simp)

theorem made_iff {s : Step} (hl : ∀ r, s ≠ .ligature r) (k : Str) : (∃ t, k <:+: s.does t) ↔ ¬ NeverMade s k := by
  cases s with
  | ligature r => exact absurd rfl (hl r)
  | convert l =>
    have e : ∀ t, Step.does (.convert l) t = t.map (image l) := fun t => rfl
    simp only [e, NeverMade]
    constructor
    · rintro ⟨t, h⟩ ⟨c, hc, hn⟩
      obtain ⟨d, -, hd⟩ := List.mem_map.1 (h.subset hc)
      exact hn d hd
    · intro h
      replace h : ∀ c ∈ k, ∃ d, image l d = c := fun c hc => Classical.byContradiction fun hn =>
        h ⟨c, hc, fun d hd => hn ⟨d, hd⟩⟩
      suffices ∃ t : Str, t.map (image l) = k from this.elim fun t ht => ⟨t, ht ▸ List.infix_refl _⟩
      clear e
      induction k with
      | nil => exact ⟨[], rfl⟩
      | cons c k ih =>
        obtain ⟨t, ht⟩ := ih fun c hc => h c (by simp [hc])
        obtain ⟨d, hd⟩ := h c (by simp)
        exact ⟨d :: t, by simp [hd, ht]⟩
  | eliminate cs =>
    have e : ∀ t, Step.does (.eliminate cs) t = t.filter (· ∉ cs) := fun t => rfl
    simp only [e, NeverMade]
    constructor
    · rintro ⟨t, h⟩ ⟨c, hc, hn⟩
      have := (List.mem_filter.1 (h.subset hc)).2
      simp [hn] at this
    · intro h
      refine ⟨k, ?_⟩
      rw [List.filter_eq_self.2]
      · exact List.infix_refl _
      · intro c hc
        simp only [decide_eq_true_eq]
        exact fun hn => h ⟨c, hc, hn⟩
  | reduce c =>
    have e : ∀ t, Step.does (.reduce c) t = squeeze c t := fun t => rfl
    simp only [e, NeverMade]
    constructor
    · rintro ⟨t, h⟩ h2
      obtain ⟨u, v, e⟩ := h2.trans h
      exact squeeze_no_pair c t u v (by rw [← e]; simp)
    · intro h
      refine ⟨k, ?_⟩
      rw [squeeze_fix fun u v e => h ⟨u, v, by rw [e]; simp⟩]
      exact List.infix_refl _
  | spaces =>
    have e : ∀ t, Step.does .spaces t = spaceRule t := fun t => by
      show dGo false false t = _
      rw [← dotted_eq, dotted_eq_dGo]
    simp only [e, NeverMade, Classical.not_not]
    constructor
    · rintro ⟨t, h⟩
      exact spacesOk_part (C11_result_spaces t) h
    · intro h
      exact ⟨_, by rw [spaceRule_fix h]; exact ⟨c! "1", c! "1", rfl⟩⟩
  | trim =>
    refine ⟨fun _ h => h, fun _ => ⟨c! "1" ++ k ++ c! "1", ?_⟩⟩
    have : Step.does .trim (c! "1" ++ k ++ c! "1") = c! "1" ++ k ++ c! "1" :=
      trim_words ⟨by simp, by rw [List.getLast?_concat]; decide⟩
    rw [this]
    exact ⟨c! "1", c! "1", rfl⟩
  | neologdn =>
    have e : ∀ t, Step.does .neologdn t = neologdnSpec t := fun t => rfl
    simp only [e, NeverMade, Classical.not_not]
    constructor
    · rintro ⟨t, h⟩
      exact settled_part ((normal_iff_settled _).1 (spec_normal t)) h
    · intro h
      exact ⟨spread (c! "1" ++ k ++ c! "1"), by rw [spec_spread h]; exact ⟨c! "1", c! "1", rfl⟩⟩

theorem replace_before {f : Str → Str} {k v : Str} (hk : k ≠ []) (h : ∀ u w, f (u ++ k ++ w) = f (u ++ v ++ w)) (t : Str) :
    f (strReplace k v t) = f t := by
  obtain ⟨I, h3, rfl⟩ := parsed_exists hk t
  rw [parsed_replace hk v h3]
  suffices ∀ p : Str, f (p ++ unread v I) = f (p ++ unread k I) from this []
  clear h3
  induction I with
  | nil => exact fun p => rfl
  | cons x I ih =>
    intro p
    cases x with
    | none =>
      have := ih (p ++ v)
      rw [List.append_assoc] at this
      rw [unread, this, unread, ← List.append_assoc, h]
    | some c =>
      have := ih (p ++ [c])
      simpa [unread] using this

theorem one_modify (σ : Oracle) (k v t : Str) :
    ModifierKind.modify σ t (.ligatureTranslator ⟨[(k, v)]⟩) = .ok (strReplace k v t) := by
  rw [ModifierKind.modify, one_rule]

/-! ### The property -/

/-- C113: a rule right after another modifier is superfluous exactly if that modifier never makes the key. -/
theorem C113_after (σ : Oracle) (y z : YValue) (s : Step) (hd : Describes y z s) (hl : ∀ r, s ≠ .ligature r)
    (k v : Str) (hk : k ≠ []) (hv : v ≠ k) :
    ∃ m, ModifierKind.fromYaml σ y z = .ok m ∧ ∀ σs τs,
      ((∀ t, (Chanoma.mk [m, .ligatureTranslator ⟨[(k, v)]⟩]).normalize σs false t = (Chanoma.mk [m]).normalize τs false t) ↔
        NeverMade s k) := by
  obtain ⟨m, h1, h2⟩ := describes_ok hd σ
  have hf : ∀ τ t, m.modify τ t = .ok (s.does t) := step_function hl h2.2
  refine ⟨m, h1, fun σs τs => ?_⟩
  have n2 : ∀ t, (Chanoma.mk [m, .ligatureTranslator ⟨[(k, v)]⟩]).normalize σs false t = .ok (strReplace k v (s.does t)) := by
    intro t; simp [Chanoma.normalize, hf, one_modify]
  have n1 : ∀ t, (Chanoma.mk [m]).normalize τs false t = .ok (s.does t) := by
    intro t; simp [Chanoma.normalize, hf]
  simp only [n2, n1, Outcome.ok.injEq]
  constructor
  · intro h
    apply Classical.byContradiction
    intro hn
    obtain ⟨t, ht⟩ := (made_iff hl k).2 hn
    exact hv (strReplace_eq_self hk ht (h t))
  · intro h t
    exact strReplace_absent hk v fun hi => (made_iff hl k).1 ⟨t, hi⟩ h

/-- C113: a rule right before another modifier is superfluous if key and value are interchangeable for that modifier;
before a converter, an eliminator and a reducer exactly if it makes the same of the two; before trim never, if the key
lacks any character but the space. -/
theorem C113_before (σ : Oracle) (y z : YValue) (s : Step) (hd : Describes y z s) (hl : ∀ r, s ≠ .ligature r)
    (k v : Str) (hk : k ≠ []) :
    ∃ m, ModifierKind.fromYaml σ y z = .ok m ∧ ∀ σs τs,
      ((∀ p ∈ deciding s, SameIn m k v p.1 p.2) →
        ∀ t, (Chanoma.mk [.ligatureTranslator ⟨[(k, v)]⟩, m]).normalize σs false t = (Chanoma.mk [m]).normalize τs false t) ∧
      (deciding s = [([], [])] →
        ((∀ t, (Chanoma.mk [.ligatureTranslator ⟨[(k, v)]⟩, m]).normalize σs false t = (Chanoma.mk [m]).normalize τs false t) ↔
          (Chanoma.mk [m]).normalize σs false k = (Chanoma.mk [m]).normalize τs false v)) ∧
      (s = .trim → (∃ x, x ≠ ' ' ∧ x ∉ k) →
        ((∀ t, (Chanoma.mk [.ligatureTranslator ⟨[(k, v)]⟩, m]).normalize σs false t = (Chanoma.mk [m]).normalize τs false t) ↔
          v = k)) := by
  obtain ⟨m, h1, h2⟩ := describes_ok hd σ
  obtain ⟨m', h1', h3⟩ := C92_deciding σ y z s hd hl
  rw [h1] at h1'; cases h1'
  have hf : ∀ τ t, m.modify τ t = .ok (s.does t) := step_function hl h2.2
  have hs : ∀ a b u w, SameIn m a b u w ↔ s.does (u ++ a ++ w) = s.does (u ++ b ++ w) := by
    intro a b u w
    simp only [SameIn, hf, Outcome.ok.injEq]
    exact ⟨fun h => by obtain ⟨o, h4, h5⟩ := h .insertion .insertion; rw [h4, h5], fun h _ _ => ⟨_, rfl, h.symm⟩⟩
  refine ⟨m, h1, fun σs τs => ?_⟩
  have n2 : ∀ t, (Chanoma.mk [.ligatureTranslator ⟨[(k, v)]⟩, m]).normalize σs false t = .ok (s.does (strReplace k v t)) := by
    intro t; simp [Chanoma.normalize, hf, one_modify]
  have n1 : ∀ τs t, (Chanoma.mk [m]).normalize τs false t = .ok (s.does t) := by
    intro τs t; simp [Chanoma.normalize, hf]
  simp only [n2, n1, Outcome.ok.injEq]
  have suff : (∀ p ∈ deciding s, SameIn m k v p.1 p.2) → ∀ t, s.does (strReplace k v t) = s.does t := fun h =>
    replace_before hk fun u w => (hs k v u w).1 ((h3 k v).2 h u w)
  have rk : strReplace k v k = v := by
    have := strReplace_hit hk v []
    simpa [strReplace_nil hk] using this
  refine ⟨suff, fun hd => ⟨fun h => ?_, fun h => suff ?_⟩, ?_⟩
  · have := h k
    rw [rk] at this; exact this.symm
  · intro p hp
    rw [hd, List.mem_singleton] at hp
    subst hp
    rw [hs]; simpa using h
  · rintro rfl ⟨x, hx, hxk⟩
    constructor
    · intro h
      have h4 := h ([x] ++ k ++ [x])
      have hkx : ¬ k <+: [x] ++ k ++ [x] := by
        rintro ⟨o, ho⟩
        cases k with
        | nil => exact hk rfl
        | cons c k =>
          have := (List.cons.inj ho).1
          exact hxk (by simp [← this])
      have h5 : strReplace k v ([x] ++ k ++ [x]) = [x] ++ v ++ [x] := by
        have e1 : [x] ++ k ++ [x] = x :: (k ++ [x]) := rfl
        rw [e1] at hkx ⊢
        rw [strReplace_keep hk v hkx, strReplace_hit hk, strReplace_absent hk v (t := [x])]
        · rfl
        · intro hi
          cases k with
          | nil => exact hk rfl
          | cons c k =>
            have := hi.subset (List.mem_cons_self)
            rw [List.mem_singleton] at this
            exact hxk (by simp [this])
      have fix : ∀ w, Step.does .trim ([x] ++ w ++ [x]) = [x] ++ w ++ [x] := fun w =>
        trim_words ⟨by simp [hx], by rw [List.getLast?_concat]; simp [hx]⟩
      rw [h5, fix, fix] at h4
      simpa using h4
    · rintro rfl t
      rw [strReplace_self hk]

/- A rule for a kana with a sound mark never applies after neologdn, one for a square katakana does. -/
example : NeverMade .neologdn (c! "か゛") ∧ ¬ NeverMade .neologdn (c! "㌔") := by
  refine ⟨fun h => absurd (h.2.2 (c! "1") 'か' '゛' (c! "1") rfl) (by decide +kernel), fun h => h ?_⟩
  have : Normal (c! "1㌔1") := (by decide +kernel : neologdnSpec (c! "1㌔1") = c! "1㌔1") ▸ spec_normal _
  exact (normal_iff_settled _).mp this
example : NeverMade (.reduce 'ー') (c! "ーー") ∧ NeverMade (.eliminate ['x']) (c! "axb") ∧ NeverMade .spaces (c! "a  b") ∧
    ¬ NeverMade .spaces (c! " b") := by
  refine ⟨by unfold NeverMade; decide, by unfold NeverMade; decide, fun h => ?_, fun h => h ?_⟩
  · exact absurd (h (c! "1a") (c! " b1") rfl).2 (by decide)
  · have : SpacesOk (c! "1 b1") := (by decide +kernel : spaceRule (c! "1 b1") = c! "1 b1") ▸ C11_result_spaces _
    exact this
/- Before the reducer of the long-vowel mark, a rule that shortens its runs is superfluous. -/
example : deciding (.reduce 'ー') = [([], [])] ∧ Step.does (.reduce 'ー') (c! "ーーー") = Step.does (.reduce 'ー') (c! "ー") := by
  decide
example : ∃ x, x ≠ ' ' ∧ x ∉ c! "ab" := ⟨'c', by decide⟩

end Chanoma
