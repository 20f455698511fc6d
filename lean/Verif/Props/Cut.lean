import Verif.Proofs.Cut
import Verif.Props.Notation
import Verif.Props.Ligature
/-! # C73: at which places a text can be cut -/

namespace Chanoma

/-- C73: exactly where a text may be cut, for every modifier except the ligature translator: the two
pieces, modified separately and put together, give the modified text iff `CutAt` holds. -/
theorem C73_cut_iff (σ : Oracle) (k v : YValue) (s : Step) (hd : Describes k v s) (hl : ∀ r, s ≠ .ligature r) :
    ∃ m, ModifierKind.fromYaml σ k v = .ok m ∧ ∀ τ a b,
      ((∃ oa ob, m.modify τ a = .ok oa ∧ m.modify τ b = .ok ob ∧ m.modify τ (a ++ b) = .ok (oa ++ ob)) ↔
        CutAt a b s) := by
  obtain ⟨m, h1, h2⟩ := describes_ok hd σ
  refine ⟨m, h1, fun τ a b => ?_⟩
  obtain ⟨oa, ha, ma⟩ := h2.2 τ a
  obtain ⟨ob, hb, mb⟩ := h2.2 τ b
  obtain ⟨oc, hc, mc⟩ := h2.2 τ (a ++ b)
  have e : (∃ oa ob, m.modify τ a = .ok oa ∧ m.modify τ b = .ok ob ∧ m.modify τ (a ++ b) = .ok (oa ++ ob)) ↔
      oc = oa ++ ob := by
    simp only [ha, hb, hc, Outcome.ok.injEq]
    constructor
    · rintro ⟨_, _, rfl, rfl, h⟩; exact h
    · intro h; exact ⟨_, _, rfl, rfl, h⟩
  rw [e]
  by_cases hs : s.Simple
  · rw [act_makes hs ma, act_makes hs mb, act_makes hs mc]
    cases s with
    | convert l => simp [Step.act, CutAt]
    | eliminate cs => simp [Step.act, CutAt]
    | reduce c =>
      simp only [Step.act, CutAt]
      constructor
      · rintro h ⟨h3, h4⟩
        rw [squeeze_join h3 h4, List.append_cancel_left_eq] at h
        have := squeeze_head c b
        rw [h4] at this
        have hl := congrArg List.length h
        cases hq : squeeze c b with
        | nil => rw [hq] at this; cases this
        | cons x r => rw [hq] at hl; simp at hl
      · exact squeeze_append c a b
    | spaces =>
      simp only [Step.act, CutAt, spaces_append, List.append_cancel_left_eq]
      by_cases h : JoinedBySpace a b
      · rw [if_pos h]
        refine iff_of_false (fun e => ?_) (fun h' => h' h)
        have := congrArg List.length e
        simp at this
      · rw [if_neg h]
        exact iff_of_true rfl h
    | trim => exact trim_append_iff a b
    | ligature r => exact absurd rfl (hl r)
    | neologdn => exact hs.elim
  · cases s with
    | neologdn =>
      rw [show oa = neologdnSpec a from ma, show ob = neologdnSpec b from mb, show oc = neologdnSpec (a ++ b) from mc]
      exact neologdn_append_iff a b
    | ligature r => exact absurd rfl (hl r)
    | _ => exact absurd trivial hs

/-- C73: a ligature translator with one rule may cut a text where no occurrence of the key is cut. -/
theorem C73_ligature (σ τ υ : Oracle) (k v a b : Str) (hk : k ≠ [])
    (h : ∀ u w, k = u ++ w → u ≠ [] → w ≠ [] → ¬ (u <:+ a ∧ w <+: b)) :
    (LigatureTranslator.mk [(k, v)]).modify σ (a ++ b) =
      (LigatureTranslator.mk [(k, v)]).modify τ a ++ (LigatureTranslator.mk [(k, v)]).modify υ b := by
  have hrun : ∀ (σ : Oracle) s, (LigatureTranslator.mk [(k, v)]).modify σ s = strReplace k v s := by
    intro σ s
    have := σ.iter_perm [(k, v)]
    rw [List.perm_singleton] at this
    simp [LigatureTranslator.modify, this]
  simp only [hrun]
  suffices ∀ n, ∀ a : Str, a.length ≤ n →
      (∀ u w, k = u ++ w → u ≠ [] → w ≠ [] → ¬ (u <:+ a ∧ w <+: b)) →
      strReplace k v (a ++ b) = strReplace k v a ++ strReplace k v b from this a.length a (Nat.le_refl _) h
  clear h a
  intro n
  induction n with
  | zero =>
    intro a ha _
    rw [List.length_eq_zero_iff.mp (Nat.le_zero.mp ha), strReplace_nil hk, List.nil_append, List.nil_append]
  | succ n ih =>
    intro a ha h
    by_cases hp : k <+: a
    · obtain ⟨t, rfl⟩ := hp
      have := List.length_pos_iff.mpr hk
      rw [List.append_assoc, strReplace_hit hk, strReplace_hit hk, ih t (by simp at ha; omega), List.append_assoc]
      intro u w e hu hw hs
      exact h u w e hu hw ⟨hs.1.trans (List.suffix_append k t), hs.2⟩
    · cases a with
      | nil => rw [strReplace_nil hk, List.nil_append, List.nil_append]
      | cons c a =>
        have hp2 : ¬ k <+: c :: (a ++ b) := by
          intro h2
          rcases prefix_append_cases (s := c :: a) h2 with h3 | ⟨s, hs⟩
          · exact hp h3
          · obtain ⟨u, hu⟩ := h2
            rw [← hs, List.append_assoc] at hu
            have hu2 : s ++ u = b := List.append_cancel_left (as := c :: a) hu
            by_cases hse : s = []
            · apply hp; rw [← hs, hse]; simp
            · exact h (c :: a) s hs.symm (by simp) hse ⟨List.suffix_refl _, ⟨u, hu2⟩⟩
        rw [List.cons_append, strReplace_keep hk v hp2, ih a (by simpa using ha), strReplace_keep hk v hp]; rfl
        intro u w e hu hw hs
        exact h u w e hu hw ⟨hs.1.trans (List.suffix_cons c a), hs.2⟩

/-- C73: a pipeline of converters and eliminators works character by character, so a text may be cut
into any pieces. -/
theorem C73_pieces (c : Chanoma)
    (h : ∀ m ∈ c.modifiers, (∃ x, m = .characterConverter x) ∨ ∃ x, m = .characterEliminator x) :
    ∃ f : Char → Option Char, ∀ σs text, c.normalize σs false text = .ok (text.filterMap f) := by
  suffices ∀ ms : List ModifierKind,
      (∀ m ∈ ms, (∃ x, m = .characterConverter x) ∨ ∃ x, m = .characterEliminator x) →
      ∃ f : Char → Option Char, ∀ (σs : Nat → Oracle) i text,
        (ms.zipIdx i).foldlM (fun acc m => m.1.modify (σs m.2) acc) text = .ok (text.filterMap f) by
    obtain ⟨f, hf⟩ := this c.modifiers h
    exact ⟨f, fun σs text => by simpa [Chanoma.normalize] using hf σs 0 text⟩
  intro ms h
  induction ms with
  | nil => exact ⟨some, fun σs i text => by simp⟩
  | cons m ms ih =>
    obtain ⟨f, hf⟩ := ih fun m hm => h m (by simp [hm])
    obtain ⟨g, hg⟩ : ∃ g : Char → Option Char, ∀ τ text, m.modify τ text = .ok (text.filterMap g) := by
      rcases h m (by simp) with ⟨x, rfl⟩ | ⟨x, rfl⟩
      · refine ⟨fun c => some ((x.itemsMap.get? c).getD c), fun τ text => ?_⟩
        rw [show (ModifierKind.characterConverter x).modify τ text = x.modify τ text from rfl, modify_eq,
          List.filterMap_eq_map']
        rfl
      · refine ⟨Option.guard fun c => c ∉ x.chars, fun τ text => ?_⟩
        rw [show (ModifierKind.characterEliminator x).modify τ text = .ok (x.modify text) from rfl, eliminator_eq,
          List.filterMap_eq_filter]
    refine ⟨fun c => (g c).bind f, fun σs i text => ?_⟩
    rw [List.zipIdx_cons, List.foldlM_cons, hg, Outcome.ok_bind, hf, List.filterMap_filterMap]

example : ¬ CutAt (c! "ab ") (c! "cd") .neologdn := fun h =>
  h.2.1 (by unfold JoinedBySpace; decide +kernel)
example : ¬ CutAt (c! "ハ") (c! "゜") .neologdn := fun h => by
  have := h.2.2 'ハ' '゜' (by decide +kernel) (by decide +kernel)
  revert this; decide +kernel
example : CutAt (c! "かな ") (c! " ＡＢ") .neologdn := by
  refine ⟨by decide +kernel, fun h => absurd h.1 (by decide +kernel), fun x y hx hy => ?_⟩
  have h1 : neologdnSpec (c! "かな ") = c! "かな" := by decide +kernel
  have h2 : neologdnSpec (c! " ＡＢ") = c! "AB" := by decide +kernel
  rw [h1] at hx; rw [h2] at hy
  cases hx; cases hy; decide +kernel
example : CutAt (c! "a") (c! "b ") .trim := Or.inr (Or.inr (by decide))
example : ∀ u w, c! "ab" = u ++ w → u ≠ [] → w ≠ [] → ¬ (u <:+ c! "xa" ∧ w <+: c! "a") := by
  intro u w h hu hw
  match u, w, hu, hw with
  | [_], [_], _, _ => simp at h; obtain ⟨rfl, rfl⟩ := h; decide
  | _ :: _ :: _, _ :: _, _, _ => simp at h
  | [_], _ :: _ :: _, _, _ => simp at h

end Chanoma
