import Verif.Proofs.Contained
import Verif.Props.Neologdn
import Verif.Props.Ligature
/-! # C74: what is contained in a text stays contained in the normalised text -/

namespace Chanoma

/-- C74: a pipeline without neologdn and ligature translators keeps what is at the beginning, at the
end or anywhere in a text at the beginning, at the end or somewhere in the result. -/
theorem C74_contained (c : Chanoma) (h : ∀ m ∈ c.modifiers, m.IsPlain) (σs τs : Nat → Oracle) (part text : Str) :
    ∃ op ot, c.normalize σs false part = .ok op ∧ c.normalize τs false text = .ok ot ∧
      (part <+: text → op <+: ot) ∧ (part <:+ text → op <:+ ot) ∧ (part <:+: text → op <:+: ot) := by
  obtain ⟨f, hk, hf⟩ := pipeline_keeps c h
  exact ⟨_, _, hf σs part, hf τs text, hk.prefix, hk.suffix, hk.infix⟩

/-- C74: how neologdn puts two texts together; the four cases exclude each other. -/
theorem C74_neologdn_joined (σ : Oracle) (c : Chanoma) (hc : Chanoma.neologdn σ = .ok c)
    (σs : Nat → Oracle) (debug : Bool) (a b : Str) :
    ∃ oa ob o, c.normalize σs debug a = .ok oa ∧ c.normalize σs debug b = .ok ob ∧
      c.normalize σs debug (a ++ b) = .ok o ∧ Joined a b oa ob o ∧ ∀ o', Joined a b oa ob o' → o' = o := by
  obtain ⟨c', h1, h2⟩ := C16_neologdn σ
  rw [hc] at h1; cases h1
  refine ⟨_, _, _, h2 _ _ _, h2 _ _ _, h2 _ _ _, neologdn_joined a b, fun o' h => ?_⟩
  have hj := neologdn_joined a b
  generalize hoa : neologdnSpec a = oa at h hj
  generalize hob : neologdnSpec b = ob at h hj
  generalize neologdnSpec (a ++ b) = o at hj ⊢
  have hn : ∀ z, Composes oa ob z → ¬ _ ∧ ¬ _ := fun z hz => by
    rw [← hoa, ← hob] at hz; exact joined_no_compose hz
  have hp : ∀ z, Composes oa ob z → ¬ CutAt a b .neologdn := by
    rintro z ⟨x, y, hx, hy, hv⟩ hcut
    have := hcut.2.2 x y (hoa ▸ hx) (hob ▸ hy)
    rw [hv] at this; cases this
  have hs : (a.map neologdnFold).getLast? = some 'ー' → ¬ JoinedBySpace (a.map neologdnFold) (b.map neologdnFold) := by
    intro h3 h4
    obtain ⟨a', ha'⟩ := List.getLast?_eq_some_iff.1 h3
    have := h4.1
    rw [ha', List.filter_append] at this
    revert this
    simp
    decide +kernel
  cases h with
  | compose z h3 =>
    cases hj with
    | compose w h4 =>
      obtain ⟨x, y, hx, hy, hv⟩ := h3
      obtain ⟨x', y', hx', hy', hv'⟩ := h4
      rw [hx] at hx'; rw [hy] at hy'; cases hx'; cases hy'
      rw [hv] at hv'; cases hv'; rfl
    | choonpu h4 h5 => exact absurd ⟨h4, h5⟩ (hn _ h3).1
    | space h4 => exact absurd h4 (hn _ h3).2
    | plain h4 => exact absurd h4 (hp _ h3)
  | choonpu h3 h3' =>
    cases hj with
    | compose w h4 => exact absurd ⟨h3, h3'⟩ (hn _ h4).1
    | choonpu h4 h5 => rfl
    | space h4 => exact absurd h4 (hs h3)
    | plain h4 => exact absurd ⟨h3, h3'⟩ h4.1
  | space h3 =>
    cases hj with
    | compose w h4 => exact absurd h3 (hn _ h4).2
    | choonpu h4 h5 => exact absurd h3 (hs h4)
    | space h4 => rfl
    | plain h4 => exact absurd h3 h4.2.1
  | plain h3 =>
    cases hj with
    | compose w h4 => exact absurd h3 (hp _ h4)
    | choonpu h4 h5 => exact absurd ⟨h4, h5⟩ h3.1
    | space h4 => exact absurd h4 h3.2.1
    | plain h4 => rfl

theorem keeps_iff (a b : Str) :
    (neologdnSpec a <+: neologdnSpec (a ++ b) ↔ ∀ z, ¬ Composes (neologdnSpec a) (neologdnSpec b) z) ∧
    (neologdnSpec b <:+ neologdnSpec (a ++ b) ↔ ∀ z, ¬ Composes (neologdnSpec a) (neologdnSpec b) z) := by
  have hj := neologdn_joined a b
  have hb : (a.map neologdnFold).getLast? = some 'ー' → (b.map neologdnFold).head? = some 'ー' →
      (neologdnSpec a).getLast? = some 'ー' ∧ (neologdnSpec b).head? = some 'ー' := by
    intro h1 h2
    refine ⟨?_, ?_⟩
    · obtain ⟨a', ha'⟩ := List.getLast?_eq_some_iff.1 h1
      exact neologdn_last (by rw [ha']; simp) (by decide) (by decide) (by decide)
    · have hk : Cuts 'ー' spaceRule := Cuts.spaceRule (by decide) (by decide +kernel)
      have hv : ∀ x, voiced 'ー' x = none ∧ voiced x 'ー' = none := by
        intro x
        refine ⟨?_, voiced_none (by decide) (by decide)⟩
        cases h : voiced 'ー' x with
        | none => rfl
        | some d => exact absurd rfl (voiced_facts h).2.2.2.2.2.2.1
      have hf := Cuts.filter (sep := 'ー') (g := fun c => decide (c ∉ tildeChars)) (by decide)
      have h3 := (squeeze_head 'ー' _).trans h2
      unfold neologdnSpec
      cases hq : squeeze 'ー' (b.map neologdnFold) with
      | nil => rw [hq] at h3; cases h3
      | cons x r =>
        rw [hq] at h3; cases h3
        have e1 := hk [] r
        have e2 := hf (spaceRule []) (spaceRule r)
        have e3 := Cuts.compose hv ((spaceRule []).filter fun c => decide (c ∉ tildeChars))
          ((spaceRule r).filter fun c => decide (c ∉ tildeChars))
        rw [List.nil_append] at e1
        simp only at e2
        rw [e1, e2, e3]
        rw [show spaceRule [] = [] by decide +kernel]
        rfl
  have hx := fun z => joined_no_compose (a := a) (b := b) (z := z)
  have hp : CutAt a b .neologdn → ∀ z, ¬ Composes (neologdnSpec a) (neologdnSpec b) z := by
    rintro hcut z ⟨x, y, hx, hy, hv⟩
    have := hcut.2.2 x y hx hy
    rw [hv] at this; cases this
  generalize neologdnSpec a = oa at *
  generalize neologdnSpec b = ob at *
  generalize neologdnSpec (a ++ b) = o at *
  have good : (∀ z, ¬ Composes oa ob z) → oa <+: o → ob <:+ o →
      (oa <+: o ↔ ∀ z, ¬ Composes oa ob z) ∧ (ob <:+ o ↔ ∀ z, ¬ Composes oa ob z) :=
    fun h1 h2 h3 => ⟨iff_of_true h2 h1, iff_of_true h3 h1⟩
  cases hj with
  | compose z h =>
    have h' : ¬ ∀ z, ¬ Composes oa ob z := fun hall => hall z h
    obtain ⟨x, y, hx, hy, hv⟩ := h
    obtain ⟨u, rfl⟩ := List.getLast?_eq_some_iff.1 hx
    cases ob with
    | nil => cases hy
    | cons y' v =>
      cases hy
      have hvf := voiced_facts hv
      refine ⟨iff_of_false ?_ h', iff_of_false ?_ h'⟩
      · rintro ⟨w, hw⟩
        simp at hw
        obtain ⟨rfl, -⟩ := hw
        have h1 := hvf.2.2.2.2.2.2.2.2.2.2.2.2.2
        rcases h1.1 with rfl | rfl
        · rw [h1.2.1] at hv; cases hv
        · rw [h1.2.2] at hv; cases hv
      · rintro ⟨w, hw⟩
        have hw := congrArg List.reverse hw
        simp at hw
        obtain ⟨rfl, -⟩ := hw
        rcases hvf.2.2.2.2.2.2.2.2.2.2.2.2.2.1 with h1 | h1
        · exact hvf.2.2.2.2.2.2.2.2.2.2.2.1 h1
        · exact hvf.2.2.2.2.2.2.2.2.2.2.2.2.1 h1
  | choonpu h1 h2 =>
    obtain ⟨h3, h4⟩ := hb h1 h2
    refine good (fun z hz => (hx z hz).1 ⟨h1, h2⟩) (List.prefix_append _ _) ?_
    obtain ⟨u, rfl⟩ := List.getLast?_eq_some_iff.1 h3
    cases ob with
    | nil => cases h4
    | cons y v => cases h4; rw [List.append_assoc]; exact List.suffix_append _ _
  | space h1 =>
    refine good (fun z hz => (hx z hz).2 h1) (List.prefix_append _ _) ?_
    exact (List.suffix_cons ' ' ob).trans (List.suffix_append _ _)
  | plain h1 => exact good (hp h1) (List.prefix_append _ _) (List.suffix_append _ _)

/-- C74: for neologdn the beginning of a text stays at the beginning, and equivalently the end stays
at the end, iff no kana and sound mark compose where the two meet. -/
theorem C74_neologdn_iff (σ : Oracle) (c : Chanoma) (hc : Chanoma.neologdn σ = .ok c)
    (σs : Nat → Oracle) (debug : Bool) (a b : Str) :
    ∃ oa ob o, c.normalize σs debug a = .ok oa ∧ c.normalize σs debug b = .ok ob ∧
      c.normalize σs debug (a ++ b) = .ok o ∧
      (oa <+: o ↔ ∀ z, ¬ Composes oa ob z) ∧ (ob <:+ o ↔ ∀ z, ¬ Composes oa ob z) := by
  obtain ⟨c', h1, h2⟩ := C16_neologdn σ
  rw [hc] at h1; cases h1
  exact ⟨_, _, _, h2 _ _ _, h2 _ _ _, h2 _ _ _, keeps_iff a b⟩

theorem fold_mark : ∀ c, neologdnFold c = '゛' ∨ neologdnFold c = '゜' → c = '゛' ∨ c = '゜' := by
  intro c h
  by_cases hc : neologdnFold c = c
  · rwa [hc] at h
  · obtain ⟨i, hi, hf⟩ := neologdn_covered c hc
    have h1 := neologdn_graph i hi
    rw [hf, Option.map_some] at h1
    have : ∀ i ∈ neologdnConsts, i.to.head? ≠ some '゛' ∧ i.to.head? ≠ some '゜' := by decide +kernel
    have := this i hi
    rw [h1] at this
    rcases h with h | h <;> rw [h] at this
    · exact absurd rfl this.1
    · exact absurd rfl this.2

theorem spec_no_mark {t : Str} (h1 : '゛' ∉ t) (h2 : '゜' ∉ t) (c : Char) (hc : c ∈ neologdnSpec t) :
    c ≠ '゛' ∧ c ≠ '゜' := by
  rcases compose_mem hc with h | ⟨a, m, h⟩
  · rw [List.mem_filter] at h
    have h := h.1
    rw [← dotted_eq, dotted_eq_dGo] at h
    rcases dGo_mem h with h | rfl
    · obtain ⟨d, hd, rfl⟩ := List.mem_map.mp (squeeze_mem h)
      have := fold_mark d
      refine ⟨fun e => ?_, fun e => ?_⟩
      · rcases this (.inl e) with rfl | rfl
        · exact h1 hd
        · exact h2 hd
      · rcases this (.inr e) with rfl | rfl
        · exact h1 hd
        · exact h2 hd
    · decide
  · have := voiced_facts h
    exact ⟨this.2.2.2.2.2.2.2.2.2.2.2.1, this.2.2.2.2.2.2.2.2.2.2.2.2.1⟩

/-- C74: in a text without sound marks whatever is contained stays contained. -/
theorem C74_neologdn_contained (σ : Oracle) (c : Chanoma) (hc : Chanoma.neologdn σ = .ok c)
    (σs : Nat → Oracle) (debug : Bool) (part text : Str) (h1 : '゛' ∉ text) (h2 : '゜' ∉ text)
    (hp : part <:+: text) :
    ∃ op ot, c.normalize σs debug part = .ok op ∧ c.normalize σs debug text = .ok ot ∧ op <:+: ot := by
  obtain ⟨c', h3, h4⟩ := C16_neologdn σ
  rw [hc] at h3; cases h3
  refine ⟨_, _, h4 _ _ _, h4 _ _ _, ?_⟩
  obtain ⟨u, v, rfl⟩ := hp
  have no : ∀ x y : Str, '゛' ∉ y → '゜' ∉ y → ∀ z, ¬ Composes (neologdnSpec x) (neologdnSpec y) z := by
    rintro x y hy1 hy2 z ⟨a, b, -, hb, hv⟩
    have := spec_no_mark hy1 hy2 b (List.mem_of_head? hb)
    rw [voiced_none this.1 this.2] at hv; cases hv
  simp only [List.mem_append, not_or] at h1 h2
  have e1 := (keeps_iff u part).2.2 (no _ _ h1.1.2 h2.1.2)
  have e2 := (keeps_iff (u ++ part) v).1.2 (no _ _ h1.2 h2.2)
  exact e1.isInfix.trans e2.isInfix

/-- C74: with sound marks it need not, and with a ligature rule for two or more characters neither:
the first character of the key is contained in the key, but not in the value if it is not part of it. -/
theorem C74_lost (σ : Oracle) :
    (∃ c, Chanoma.neologdn σ = .ok c ∧ ∀ σs debug, c.normalize σs debug (c! "か") = .ok (c! "か") ∧
      c.normalize σs debug (c! "か゛") = .ok (c! "が")) ∧
    ∀ x k v, k ≠ [] → x ∉ v → (LigatureTranslator.mk [(x :: k, v)]).modify σ [x] = [x] ∧
      (LigatureTranslator.mk [(x :: k, v)]).modify σ (x :: k) = v ∧ [x] <:+: x :: k ∧ ¬ [x] <:+: v := by
  refine ⟨?_, fun x k v hk hx => ?_⟩
  · obtain ⟨c, h1, h2⟩ := C16_neologdn σ
    refine ⟨c, h1, fun σs debug => ⟨?_, ?_⟩⟩
    · rw [h2]; exact congrArg _ (by decide +kernel)
    · rw [h2]; exact congrArg _ (by decide +kernel)
  · have hrun : ∀ s, (LigatureTranslator.mk [(x :: k, v)]).modify σ s = strReplace (x :: k) v s := by
      intro s
      have := σ.iter_perm [(x :: k, v)]
      rw [List.perm_singleton] at this
      simp [LigatureTranslator.modify, this]
    refine ⟨?_, ?_, ⟨[], k, rfl⟩, fun h => hx ?_⟩
    · rw [hrun, strReplace_keep (by simp) v (by simp [hk]), strReplace_nil (by simp)]
    · have := strReplace_hit (k := x :: k) (by simp) v []
      rw [hrun]; simpa [strReplace_nil] using this
    · obtain ⟨u, w, h⟩ := h
      rw [← h]; simp

example : ∀ m ∈ [ModifierKind.trim, .dottedSpaceEliminator, .consecutiveCharacterReducer ⟨'ー'⟩], m.IsPlain := by
  simp [ModifierKind.IsPlain]
example : Composes (c! "はか") (c! "゛") 'が' := ⟨'か', '゛', by decide +kernel⟩
example : Joined (c! "か") (c! "゛く") (c! "か") (c! "゛く") (c! "がく") :=
  .compose 'が' ⟨'か', '゛', by decide +kernel⟩
example : Joined (c! "Ａ ") (c! "b") (c! "A") (c! "b") (c! "A b") := .space (by unfold JoinedBySpace; decide +kernel)

end Chanoma
