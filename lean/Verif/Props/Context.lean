import Verif.Spec.Context
import Verif.Proofs.Context
import Verif.Props.Backwards
import Verif.Props.Cut
/-! # C92: one text in the place of another -/

namespace Chanoma

theorem squeeze_congr {c : Char} {a b a' b' : Str} (ha : squeeze c a = squeeze c a') (hb : squeeze c b = squeeze c b') :
    squeeze c (a ++ b) = squeeze c (a' ++ b') := by
  have h1 : a.getLast? = a'.getLast? := by rw [← squeeze_last c a, ha, squeeze_last]
  have h2 : b.head? = b'.head? := by rw [← squeeze_head c b, hb, squeeze_head]
  by_cases h : a.getLast? = some c ∧ b.head? = some c
  · rw [squeeze_join h.1 h.2, squeeze_join (h1 ▸ h.1) (h2 ▸ h.2), ha, hb]
  · rw [squeeze_append c a b h, squeeze_append c a' b' (by rw [← h1, ← h2]; exact h), ha, hb]

theorem trim_between (a : Str) : trimModify (c! "x" ++ a ++ c! "x") = c! "x" ++ a ++ c! "x" := by
  obtain ⟨i, j, h, h1, h2⟩ := trim_eq (c! "x" ++ a ++ c! "x")
  refine trim_unique (a := i) (b := j) (a' := 0) (b' := 0) (h.symm.trans (by simp)) h1 h2 (by simp) ?_
  rw [List.getLast?_append]; simp

theorem realizes_same {m : ModifierKind} {f : Str → Str} (h : ∀ σ t, m.modify σ t = .ok (f t)) (a b u w : Str) :
    SameIn m a b u w ↔ f (u ++ a ++ w) = f (u ++ b ++ w) := by
  simp only [SameIn, h, Outcome.ok.injEq]
  constructor
  · intro k
    obtain ⟨o, h1, h2⟩ := k Oracle.insertion Oracle.insertion
    rw [h1, h2]
  · intro k _ _
    exact ⟨_, rfl, k.symm⟩

theorem step_function {m : ModifierKind} {s : Step} (hl : ∀ r, s ≠ .ligature r)
    (h : ∀ σ t, ∃ o, m.modify σ t = .ok o ∧ s.Makes t o) :
    ∀ σ t, m.modify σ t = .ok ((match s with | .neologdn => neologdnSpec | s => s.act) t) := by
  intro σ t
  obtain ⟨o, h1, h2⟩ := h σ t
  rw [h1]
  cases s with
  | neologdn => rw [show o = neologdnSpec t from h2]
  | ligature r => exact absurd rfl (hl r)
  | convert l => rw [act_makes (s := .convert l) trivial h2]
  | eliminate l => rw [act_makes (s := .eliminate l) trivial h2]
  | reduce c => rw [act_makes (s := .reduce c) trivial h2]
  | spaces => rw [act_makes (s := .spaces) trivial h2]
  | trim => rw [act_makes (s := .trim) trivial h2]

/-- C92: for every modifier except the ligature translator a few surroundings decide whether one text
may be put in the place of another wherever it stands: none for a converter, an eliminator and a
reducer, where the results of the two texts themselves decide; one for trim and the dotted-space rule;
four for neologdn. -/
theorem C92_deciding (σ : Oracle) (k v : YValue) (s : Step) (hd : Describes k v s) (hl : ∀ r, s ≠ .ligature r) :
    ∃ m, ModifierKind.fromYaml σ k v = .ok m ∧ ∀ a b,
      ((∀ u w, SameIn m a b u w) ↔ ∀ p ∈ deciding s, SameIn m a b p.1 p.2) := by
  obtain ⟨m, h1, h2⟩ := describes_ok hd σ
  refine ⟨m, h1, fun a b => ⟨fun h p _ => h _ _, fun h u w => ?_⟩⟩
  have hf := step_function hl h2.2
  rw [realizes_same hf]
  simp only [realizes_same hf] at h
  cases s with
  | ligature r => exact absurd rfl (hl r)
  | convert l =>
    have h := h ([], []) (by simp [deciding])
    simp only [Step.act, List.nil_append, List.append_nil, List.map_append] at h ⊢
    rw [h]
  | eliminate l =>
    have h := h ([], []) (by simp [deciding])
    simp only [Step.act, List.nil_append, List.append_nil, List.filter_append] at h ⊢
    rw [h]
  | reduce c =>
    have h := h ([], []) (by simp [deciding])
    simp only [Step.act, List.nil_append, List.append_nil] at h ⊢
    exact squeeze_congr (squeeze_congr rfl h) rfl
  | spaces =>
    have h := h (c! "1", c! "1") (by simp [deciding])
    obtain ⟨h3, h4⟩ := dotted_decides h
    exact dotted_same h3 h4 u w
  | trim =>
    have h := h (c! "x", c! "x") (by simp [deciding])
    simp only [Step.act, trim_between, List.append_cancel_left_eq, List.append_cancel_right_eq] at h
    rw [h]
  | neologdn =>
    have e1 := h (c! "1", c! "1") (by simp [deciding])
    have e2 := h (c! "1 ", c! " 1") (by simp [deciding])
    have e3 := h (c! "ー", []) (by simp [deciding])
    have e4 := h ([], c! "ー") (by simp [deciding])
    simp only [List.append_nil, List.nil_append] at e3 e4
    obtain ⟨h3, h4⟩ := neologdn_decides e1 e2
    exact neologdn_same h3 h4 e3 e4 u w

/-- Two texts that neologdn treats alike in three of the four surroundings, but not in the fourth. -/
def told : List ((Str × Str) × (Str × Str)) :=
  [((c! "1", c! "1"), (c! "1", c! " 1")), ((c! "1 ", c! " 1"), (c! "~", c! "")),
    ((c! "ー", []), (c! "~ー", c! "ー")), (([], c! "ー"), (c! "ー~", c! "ー"))]

/-- C92: each of the four surroundings is needed: without it, two texts that are not interchangeable
would seem so. -/
theorem C92_needed (σ : Oracle) : ∃ m, ModifierKind.fromYaml σ (.string (c! "neologdn")) .null = .ok m ∧
    ∀ p ∈ deciding .neologdn,
      ∃ a b, (∀ q ∈ deciding .neologdn, q ≠ p → SameIn m a b q.1 q.2) ∧ ¬ SameIn m a b p.1 p.2 := by
  obtain ⟨m, h1, h2⟩ := describes_ok .neologdn σ
  refine ⟨m, h1, fun p hp => ?_⟩
  have hf := step_function (fun r => by simp) h2.2
  simp only [realizes_same hf]
  have : ∀ p ∈ deciding .neologdn, ∃ t ∈ told, (∀ q ∈ deciding .neologdn, q ≠ p →
      neologdnSpec (q.1 ++ t.2.1 ++ q.2) = neologdnSpec (q.1 ++ t.2.2 ++ q.2)) ∧
      ¬ neologdnSpec (p.1 ++ t.2.1 ++ p.2) = neologdnSpec (p.1 ++ t.2.2 ++ p.2) := by decide +kernel
  obtain ⟨t, -, ht⟩ := this p hp
  exact ⟨t.2.1, t.2.2, ht⟩

/-- C92: for trim, the dotted-space rule and neologdn the results of the two texts themselves do not
decide: a space after a text is lost, but not if more text follows. -/
theorem C92_alone (σ : Oracle) (k v : YValue) (s : Step) (hd : Describes k v s)
    (hs : s = .trim ∨ s = .spaces ∨ s = .neologdn) : ∃ m, ModifierKind.fromYaml σ k v = .ok m ∧
    SameIn m (c! "a ") (c! "a") [] [] ∧ ¬ SameIn m (c! "a ") (c! "a") [] (c! "b") := by
  obtain ⟨m, h1, h2⟩ := describes_ok hd σ
  refine ⟨m, h1, ?_⟩
  rcases hs with rfl | rfl | rfl <;>
    simp only [realizes_same (step_function (fun r => by simp) h2.2)] <;> decide +kernel

/-- C92: for a ligature translator with one rule the surroundings shorter than the key decide. -/
theorem C92_ligature (k v : Str) (hk : k ≠ []) (a b : Str) :
    (∀ u w, SameIn (.ligatureTranslator ⟨[(k, v)]⟩) a b u w) ↔
      ∀ u w : Str, u.length < k.length → w.length < k.length →
        SameIn (.ligatureTranslator ⟨[(k, v)]⟩) a b u w := by
  have hf : ∀ σ t, (ModifierKind.ligatureTranslator ⟨[(k, v)]⟩).modify σ t = .ok (strReplace k v t) := by
    intro σ t
    rw [ModifierKind.modify, one_rule]
  simp only [realizes_same hf]
  exact ⟨fun h u w _ _ => h u w, strReplace_same hk⟩

/-- C92: in a pipeline of converters and eliminators the results of the two texts themselves decide. -/
theorem C92_pieces (c : Chanoma)
    (h : ∀ m ∈ c.modifiers, (∃ x, m = .characterConverter x) ∨ ∃ x, m = .characterEliminator x)
    (σs τs : Nat → Oracle) (a b o : Str) (ha : c.normalize σs false a = .ok o) (hb : c.normalize τs false b = .ok o)
    (u w : Str) : ∃ o, c.normalize σs false (u ++ a ++ w) = .ok o ∧ c.normalize τs false (u ++ b ++ w) = .ok o := by
  obtain ⟨f, hf⟩ := C73_pieces c h
  rw [hf] at ha hb
  refine ⟨_, hf _ _, ?_⟩
  rw [hf]
  cases ha
  rw [Outcome.ok.injEq] at hb
  simp only [List.filterMap_append, hb]

/-- C92: in a pipeline of two modifiers the results of the two texts do not decide, even where they do
for each of the two: `y` and nothing become the same, `xyx` and `xx` do not. -/
theorem C92_pipeline (σs : Nat → Oracle) :
    let c : Chanoma := ⟨[.consecutiveCharacterReducer ⟨'x'⟩, .characterEliminator ⟨['y']⟩]⟩
    c.normalize σs false (c! "y") = .ok [] ∧ c.normalize σs false [] = .ok [] ∧
      c.normalize σs false (c! "xyx") = .ok (c! "xx") ∧ c.normalize σs false (c! "xx") = .ok (c! "x") := by
  refine ⟨?_, ?_, ?_, ?_⟩ <;> rfl

/-! ### Examples -/

/-- Fullwidth and halfwidth writing are interchangeable for neologdn, also next to other text. -/
example (σ : Oracle) : ∃ m, ModifierKind.fromYaml σ (.string (c! "neologdn")) .null = .ok m ∧
    ∀ u w, SameIn m (c! "Ｎｏ１  ~ー") (c! "No1 ~~ーー") u w := by
  obtain ⟨m, h1, h2⟩ := C92_deciding σ _ _ _ .neologdn (fun r => by simp)
  refine ⟨m, h1, (h2 _ _).2 ?_⟩
  obtain ⟨m', h1', h2'⟩ := describes_ok .neologdn σ
  rw [h1] at h1'; cases h1'
  simp only [realizes_same (step_function (fun r => by simp) h2'.2)]
  decide +kernel

/-- For `ab` becoming `b`, `ab` and `b` have the same result, but not behind an `a`. -/
example : SameIn (.ligatureTranslator ⟨[(c! "ab", c! "b")]⟩) (c! "ab") (c! "b") [] [] ∧
    ¬ SameIn (.ligatureTranslator ⟨[(c! "ab", c! "b")]⟩) (c! "ab") (c! "b") (c! "a") [] := by
  have hf : ∀ σ t, (ModifierKind.ligatureTranslator ⟨[(c! "ab", c! "b")]⟩).modify σ t =
      .ok (strReplace (c! "ab") (c! "b") t) := by
    intro σ t
    rw [ModifierKind.modify, one_rule]
  simp only [realizes_same hf]
  decide +kernel

end Chanoma
