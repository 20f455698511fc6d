import Verif.Spec.Contained
import Verif.Proofs.Cut
/-! # Lemmas about what becomes of a part of a text -/

namespace Chanoma

/-! ## The plain modifiers -/

/-- `f` keeps prefixes and suffixes. -/
def Keeps (f : Str → Str) : Prop := ∀ a b, f a <+: f (a ++ b) ∧ f b <:+ f (a ++ b)

theorem Keeps.prefix {f : Str → Str} (h : Keeps f) {a t : Str} (ha : a <+: t) : f a <+: f t := by
  obtain ⟨b, rfl⟩ := ha; exact (h a b).1

theorem Keeps.suffix {f : Str → Str} (h : Keeps f) {b t : Str} (hb : b <:+ t) : f b <:+ f t := by
  obtain ⟨a, rfl⟩ := hb; exact (h a b).2

theorem Keeps.comp {f g : Str → Str} (hf : Keeps f) (hg : Keeps g) : Keeps fun t => f (g t) :=
  fun a b => ⟨hf.prefix (hg a b).1, hf.suffix (hg a b).2⟩

theorem Keeps.infix {f : Str → Str} (h : Keeps f) {a t : Str} (ha : a <:+: t) : f a <:+: f t := by
  obtain ⟨u, v, rfl⟩ := ha
  have h1 := (h (u ++ a) v).1
  have h2 := (h u a).2
  exact h2.isInfix.trans h1.isInfix

theorem Keeps.map (g : Char → Char) : Keeps (·.map g) := fun a b => by simp

theorem Keeps.filter (g : Char → Bool) : Keeps (·.filter g) := fun a b => by simp

theorem Keeps.squeeze (c : Char) : Keeps (squeeze c) := by
  intro a b
  by_cases h : a.getLast? = some c ∧ b.head? = some c
  · rw [squeeze_join h.1 h.2]
    refine ⟨List.prefix_append _ _, ?_⟩
    obtain ⟨a', ha'⟩ := List.getLast?_eq_some_iff.1 ((squeeze_last c a).trans h.1)
    have h2 := (squeeze_head c b).trans h.2
    cases hb : Chanoma.squeeze c b with
    | nil => rw [hb] at h2; cases h2
    | cons x r =>
      rw [hb] at h2; cases h2
      rw [ha', List.tail_cons, List.append_assoc]
      exact List.suffix_append _ _
  · rw [squeeze_append c a b h]
    exact ⟨List.prefix_append _ _, List.suffix_append _ _⟩

theorem Keeps.dGo : Keeps (dGo false false) := by
  classical
  intro a b
  rw [spaces_append]
  exact ⟨List.prefix_append _ _, by rw [← List.append_assoc]; exact List.suffix_append _ _⟩

theorem trim_append_cases (a b : Str) : (trimModify a = [] ∧ trimModify (a ++ b) = trimModify b) ∨
    (trimModify b = [] ∧ trimModify (a ++ b) = trimModify a) ∨
    ∃ k, trimModify (a ++ b) = trimModify a ++ (List.replicate k ' ' ++ trimModify b) := by
  obtain ⟨i, j, ha, ha1, ha2⟩ := trim_eq a
  obtain ⟨k, l, hb, hb1, hb2⟩ := trim_eq b
  obtain ⟨m, n, hc, hc1, hc2⟩ := trim_eq (a ++ b)
  by_cases ea : trimModify a = []
  · refine .inl ⟨ea, ?_⟩
    rw [ea] at ha
    have ha' : a = List.replicate (i + j) ' ' := by rw [ha]; simp
    refine trim_unique (a := m) (b := n) (a' := i + j + k) (b' := l) ?_ hc1 hc2 hb1 hb2
    rw [← hc, ha']
    conv => lhs; rw [hb]
    simp [← List.append_assoc]
  · by_cases eb : trimModify b = []
    · refine .inr (.inl ⟨eb, ?_⟩)
      rw [eb] at hb
      have hb' : b = List.replicate (k + l) ' ' := by rw [hb]; simp
      refine trim_unique (a := m) (b := n) (a' := i) (b' := j + (k + l)) ?_ hc1 hc2 ha1 ha2
      rw [← hc, hb']
      conv => lhs; rw [ha]
      simp [List.append_assoc]
    · refine .inr (.inr ⟨j + k, ?_⟩)
      refine trim_unique (a := m) (b := n) (a' := i) (b' := l) ?_ hc1 hc2 ?_ ?_
      · rw [← hc]
        conv => lhs; rw [ha, hb]
        simp only [List.append_assoc, ← List.replicate_append_replicate]
      · rw [head_app ea]; exact ha1
      · rw [← List.append_assoc, getLast_app eb]; exact hb2

theorem Keeps.trim : Keeps trimModify := by
  intro a b
  rcases trim_append_cases a b with ⟨h1, h2⟩ | ⟨h1, h2⟩ | ⟨k, h⟩
  · rw [h1, h2]; exact ⟨List.nil_prefix, List.suffix_refl _⟩
  · rw [h1, h2]; exact ⟨List.prefix_refl _, List.nil_suffix⟩
  · rw [h]
    exact ⟨List.prefix_append _ _, by rw [← List.append_assoc]; exact List.suffix_append _ _⟩

/-- A plain modifier is a total function that keeps prefixes and suffixes. -/
theorem ModifierKind.IsPlain.keeps {m : ModifierKind} (h : m.IsPlain) :
    ∃ f, Keeps f ∧ ∀ τ text, m.modify τ text = .ok (f text) := by
  cases m with
  | characterConverter x =>
    refine ⟨_, Keeps.map fun c => (x.itemsMap.get? c).getD c, fun τ text => ?_⟩
    rw [show (ModifierKind.characterConverter x).modify τ text = x.modify τ text from rfl, modify_eq]
    rfl
  | characterEliminator x =>
    refine ⟨_, Keeps.filter fun c => decide (c ∉ x.chars), fun τ text => ?_⟩
    rw [show (ModifierKind.characterEliminator x).modify τ text = .ok (x.modify text) from rfl, eliminator_eq]
  | consecutiveCharacterReducer x =>
    refine ⟨_, Keeps.squeeze x.c, fun τ text => ?_⟩
    rw [show (ModifierKind.consecutiveCharacterReducer x).modify τ text = .ok (x.modify text) from rfl, reducer_eq]
  | dottedSpaceEliminator =>
    refine ⟨_, Keeps.dGo, fun τ text => ?_⟩
    rw [show ModifierKind.dottedSpaceEliminator.modify τ text = .ok (dottedModify text) from rfl, dotted_eq_dGo]
  | trim => exact ⟨_, Keeps.trim, fun τ text => rfl⟩
  | ligatureTranslator x => exact h.elim
  | neologdn x => exact h.elim

theorem pipeline_keeps (c : Chanoma) (h : ∀ m ∈ c.modifiers, m.IsPlain) :
    ∃ f, Keeps f ∧ ∀ σs text, c.normalize σs false text = .ok (f text) := by
  suffices ∀ ms : List ModifierKind, (∀ m ∈ ms, m.IsPlain) →
      ∃ f, Keeps f ∧ ∀ (σs : Nat → Oracle) i text,
        (ms.zipIdx i).foldlM (fun acc m => m.1.modify (σs m.2) acc) text = .ok (f text) by
    obtain ⟨f, hk, hf⟩ := this c.modifiers h
    exact ⟨f, hk, fun σs text => by simpa [Chanoma.normalize] using hf σs 0 text⟩
  intro ms h
  induction ms with
  | nil => exact ⟨fun t => t, fun a b => by simp, fun σs i text => by simp⟩
  | cons m ms ih =>
    obtain ⟨f, hk, hf⟩ := ih fun m hm => h m (by simp [hm])
    obtain ⟨g, hg, hm⟩ := (h m (by simp)).keeps
    refine ⟨_, hk.comp hg, fun σs i text => ?_⟩
    rw [List.zipIdx_cons, List.foldlM_cons, hm, Outcome.ok_bind, hf]

/-! ## Neologdn -/

theorem compose_append_hit {a b : Str} {x y z : Char} (ha : (composeMarks a).getLast? = some x)
    (hb : (composeMarks b).head? = some y) (hv : voiced x y = some z) :
    composeMarks (a ++ b) = (composeMarks a).dropLast ++ z :: (composeMarks b).tail := by
  induction a using compose_induction with
  | h0 => cases ha
  | h1 a =>
    rw [compose_one] at ha ⊢
    rw [List.getLast?_singleton, Option.some.injEq] at ha
    subst ha
    cases b with
    | nil => cases hb
    | cons w b =>
      have hn : ∀ d, voiced y d = none := by
        intro d
        cases hz : voiced y d with
        | none => rfl
        | some e =>
          have h1 := voiced_mark hv
          have h2 := voiced_mark hz
          rcases h1 with rfl | rfl <;> rcases h2 with rfl | rfl <;> exact absurd hz (by simp [voiced])
      cases b with
      | nil => cases hb; rw [List.singleton_append, compose_hit hv]; rfl
      | cons u b =>
        cases hw : voiced w u with
        | some d =>
          rw [compose_hit hw] at hb; cases hb
          have := voiced_facts hw
          rw [voiced_none this.2.2.2.2.2.2.2.2.2.2.2.1 this.2.2.2.2.2.2.2.2.2.2.2.2.1] at hv
          cases hv
        | none =>
          rw [compose_keep hw] at hb ⊢; cases hb
          rw [List.singleton_append, compose_hit hv]; rfl
  | h2 a m t c hw ih =>
    rw [compose_hit hw] at ha ⊢
    rw [List.cons_append, List.cons_append, compose_hit hw]
    cases ht : composeMarks t with
    | nil =>
      rw [ht, List.getLast?_singleton, Option.some.injEq] at ha
      subst ha
      exfalso
      have h1 := (voiced_facts hw).2.2.2.2.2.2.2.2.2.2.2.2.2.2
      rcases voiced_mark hv with rfl | rfl
      · rw [h1.1] at hv; cases hv
      · rw [h1.2] at hv; cases hv
    | cons d r =>
      rw [ht, List.getLast?_cons_cons] at ha
      rw [ht] at ih
      rw [ih ha, List.dropLast_cons_cons]; rfl
  | h3 a m t hw ih =>
    rw [compose_keep hw] at ha ⊢
    rw [List.cons_append, List.cons_append, compose_keep hw]
    rw [List.cons_append] at ih
    cases ht : composeMarks (m :: t) with
    | nil =>
      exfalso
      cases t with
      | nil => cases ht
      | cons w t =>
        cases hw : voiced m w with
        | none => rw [compose_keep hw] at ht; cases ht
        | some d => rw [compose_hit hw] at ht; cases ht
    | cons d r =>
      rw [ht, List.getLast?_cons_cons] at ha
      rw [ht] at ih
      rw [ih ha, List.dropLast_cons_cons]; rfl

theorem neologdn_joined (a b : Str) :
    Joined a b (neologdnSpec a) (neologdnSpec b) (neologdnSpec (a ++ b)) := by
  by_cases h0 : CutAt a b .neologdn
  · rw [(neologdn_append_iff a b).2 h0]; exact .plain h0
  by_cases h1 : (a.map neologdnFold).getLast? = some 'ー' ∧ (b.map neologdnFold).head? = some 'ー'
  · have key : neologdnSpec (a ++ b) = neologdnSpec a ++ (neologdnSpec b).tail := by
      clear h0
      revert h1
      unfold neologdnSpec
      simp only [List.map_append]
      generalize a.map neologdnFold = a
      generalize b.map neologdnFold = b
      intro h1
      have hS : ∀ t, spaceRule t = dGo false false t := fun t => by rw [← dotted_eq, dotted_eq_dGo]
      simp only [hS]
      rw [squeeze_join h1.1 h1.2]
      obtain ⟨a', ha'⟩ := List.getLast?_eq_some_iff.1 ((squeeze_last 'ー' a).trans h1.1)
      obtain ⟨r, hr⟩ : ∃ r, squeeze 'ー' b = 'ー' :: r := by
        have := squeeze_head 'ー' b
        rw [h1.2] at this
        cases h : squeeze 'ー' b with
        | nil => rw [h] at this; cases this
        | cons x r => rw [h] at this; cases this; exact ⟨r, rfl⟩
      have hn : isAsciiAlphanumeric 'ー' = false := by decide +kernel
      have hk : ∀ u v, dGo false false (u ++ 'ー' :: v) = dGo false false u ++ 'ー' :: dGo false false v :=
        fun u v => dGo_cut (by decide) hn u v false false
      have hv : ∀ x, voiced 'ー' x = none ∧ voiced x 'ー' = none := by
        intro x
        refine ⟨?_, voiced_none (by decide) (by decide)⟩
        cases h : voiced 'ー' x with
        | none => rfl
        | some d => exact absurd rfl (voiced_facts h).2.2.2.2.2.2.1
      have e0 := hk [] r
      have e1 := hk a' r
      have e2 := hk a' []
      rw [ha', hr, List.tail_cons, List.append_assoc, List.singleton_append, e1, e2]
      rw [List.nil_append] at e0
      rw [e0]
      have hf := Cuts.filter (sep := 'ー') (g := fun c => decide (c ∉ tildeChars)) (by decide)
      have hc := Cuts.compose hv
      have e3 := hf (dGo false false []) (dGo false false r)
      simp only [hf _ _] at e3 ⊢
      simp only [hc _ _] at e3 ⊢
      simp [show dGo false false [] = [] from rfl, compose_nil]
    rw [key]; exact .choonpu h1.1 h1.2
  by_cases h2 : JoinedBySpace (a.map neologdnFold) (b.map neologdnFold)
  · have key : neologdnSpec (a ++ b) = neologdnSpec a ++ ' ' :: neologdnSpec b := by
      clear h0
      revert h1 h2
      unfold neologdnSpec
      simp only [List.map_append]
      generalize a.map neologdnFold = a
      generalize b.map neologdnFold = b
      intro h1 h2
      have hS : ∀ t, spaceRule t = dGo false false t := fun t => by rw [← dotted_eq, dotted_eq_dGo]
      simp only [hS]
      rw [squeeze_append _ _ _ h1, spaces_append, if_pos ((joined_squeeze a b).2 h2)]
      have hv : ∀ x, voiced ' ' x = none ∧ voiced x ' ' = none := by
        intro x
        refine ⟨?_, voiced_none (by decide) (by decide)⟩
        cases h : voiced ' ' x with
        | none => rfl
        | some d => exact absurd rfl (voiced_facts h).2.2.2.1
      have hf := Cuts.filter (sep := ' ') (g := fun c => decide (c ∉ tildeChars)) (by decide)
      simp only [List.singleton_append, hf _ _]
      rw [Cuts.compose hv _ _]
    rw [key]; exact .space h2
  have h3 : ∃ z, Composes (neologdnSpec a) (neologdnSpec b) z := by
    refine Classical.byContradiction fun h => h0 ⟨h1, h2, fun x y hx hy => ?_⟩
    cases hv : voiced x y with
    | none => rfl
    | some z => exact absurd ⟨z, x, y, hx, hy, hv⟩ h
  obtain ⟨z, x, y, hx, hy, hv⟩ := h3
  have key : neologdnSpec (a ++ b) = (neologdnSpec a).dropLast ++ z :: (neologdnSpec b).tail := by
    clear h0
    revert h1 h2 hx hy
    unfold neologdnSpec
    simp only [List.map_append]
    generalize a.map neologdnFold = a
    generalize b.map neologdnFold = b
    intro h1 h2 hx hy
    have hS : ∀ t, spaceRule t = dGo false false t := fun t => by rw [← dotted_eq, dotted_eq_dGo]
    simp only [hS] at hx hy ⊢
    rw [squeeze_append _ _ _ h1, spaces_append, if_neg (fun h => h2 ((joined_squeeze a b).1 h)), List.nil_append,
      List.filter_append]
    exact compose_append_hit hx hy hv
  rw [key]; exact .compose z ⟨x, y, hx, hy, hv⟩

theorem last_visible {t : Str} {c : Char} (h : (t.filter (· ≠ ' ')).getLast? = some c) :
    ∃ u k, t = u ++ c :: List.replicate k ' ' ∧ c ≠ ' ' := by
  induction t using snoc_induction with
  | h0 => cases h
  | h1 t d ih =>
    by_cases hd : d = ' '
    · subst hd
      rw [List.filter_append] at h
      obtain ⟨u, k, rfl, hc⟩ := ih (by simpa using h)
      exact ⟨u, k + 1, by simp [List.replicate_succ'], hc⟩
    · rw [List.filter_append] at h
      simp [hd] at h
      subst h
      exact ⟨t, 0, by simp, hd⟩

theorem squeeze_last_visible (t : Str) :
    ((squeeze 'ー' t).filter (· ≠ ' ')).getLast? = (t.filter (· ≠ ' ')).getLast? := by
  induction t with
  | nil => rfl
  | cons c t ih =>
    by_cases h : c = 'ー' ∧ t.head? = some 'ー'
    · rw [squeeze, if_pos h, ih]
      cases t with
      | nil => cases h.2
      | cons d t =>
        obtain ⟨rfl, h⟩ := h
        cases h
        simp [List.getLast?_cons]
    · rw [squeeze, if_neg h]
      by_cases hc : c = ' '
      · subst hc
        simpa using ih
      · simp only [ne_eq, hc, not_false_eq_true, decide_true, List.filter_cons_of_pos, List.getLast?_cons] at ih ⊢
        rw [ih]

theorem neologdn_last {a : Str} {c : Char} (h : ((a.map neologdnFold).filter (· ≠ ' ')).getLast? = some c)
    (h1 : c ∉ tildeChars) (h2 : c ≠ '゛') (h3 : c ≠ '゜') : (neologdnSpec a).getLast? = some c := by
  unfold neologdnSpec
  generalize a.map neologdnFold = a at h
  rw [← squeeze_last_visible] at h
  obtain ⟨u, k, hu, hc⟩ := last_visible h
  have e : spaceRule (u ++ c :: List.replicate k ' ') = dGo false false (u ++ [c]) := by
    rw [← dotted_eq, dotted_eq_dGo, show u ++ c :: List.replicate k ' ' = (u ++ [c]) ++ List.replicate k ' ' by simp,
      dGo_trailing]
  have e2 : ∀ p sp, dGo p sp [c] = (dGo p sp [c]).dropLast ++ [c] := by
    intro p sp
    simp only [dGo, hc, if_false]
    split <;> simp
  rw [hu, e, dGo_append, e2, ← List.append_assoc, List.filter_append]
  simp only [h1, not_false_eq_true, decide_true, List.filter_cons_of_pos, List.filter_nil]
  rw [(compose_append_iff _ _).2]
  · simp [compose_one]
  · intro x y _ hy
    rw [compose_one] at hy; cases hy
    exact voiced_none h2 h3

/-- Where prolonged sound marks or spaces are joined, nothing composes. -/
theorem joined_no_compose {a b : Str} {z : Char} (h : Composes (neologdnSpec a) (neologdnSpec b) z) :
    ¬ ((a.map neologdnFold).getLast? = some 'ー' ∧ (b.map neologdnFold).head? = some 'ー') ∧
    ¬ JoinedBySpace (a.map neologdnFold) (b.map neologdnFold) := by
  obtain ⟨x, y, hx, hy, hv⟩ := h
  have hf := voiced_facts hv
  refine ⟨fun h => ?_, fun h => ?_⟩
  · obtain ⟨a', ha'⟩ := List.getLast?_eq_some_iff.1 h.1
    have := neologdn_last (a := a) (c := 'ー') (by rw [ha']; simp) (by decide) (by decide) (by decide)
    rw [hx] at this; cases this
    exact hf.2.2.2.2.2.2.1 rfl
  · have h1 := h.1
    cases hc : ((a.map neologdnFold).filter (· ≠ ' ')).getLast? with
    | none => rw [hc] at h1; exact h1
    | some c =>
      rw [hc] at h1
      have h2 := (isAlnum_iff c).2 h1
      have := neologdn_last hc (fun e => by rw [(by decide +kernel : ∀ c ∈ tildeChars, isAsciiAlphanumeric c = false) c e] at h2; cases h2)
        (fun e => by rw [e] at h2; revert h2; decide +kernel) (fun e => by rw [e] at h2; revert h2; decide +kernel)
      rw [hx] at this; cases this
      rw [hf.1] at h2; cases h2

end Chanoma
