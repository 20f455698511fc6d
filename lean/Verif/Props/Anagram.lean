import Verif.Props.Kinds
import Verif.Props.OneFile
/-! # C100: texts of the same characters in another order -/

namespace Chanoma

/-- C100: converters and eliminators, however many, make of texts with the same characters texts with the same
characters; a character occurs in the result as often as there are characters in the text of which it remains. -/
theorem C100_pipeline {c : Chanoma} (hc : ∀ m ∈ c.modifiers, m.CharByChar) (σs τs : Nat → Oracle) (text : Str) :
    ∃ out, c.normalize σs false text = .ok out ∧
      (∀ d, out.count d = text.countP fun ch => c.normalize τs false [ch] = .ok [d]) ∧
      ∀ text', text.Perm text' → ∃ out', c.normalize τs false text' = .ok out' ∧ out.Perm out' := by
  obtain ⟨f, hf⟩ := charByChar_normalize hc
  refine ⟨_, hf σs text, fun d => ?_, fun text' h => ⟨_, hf τs text', h.filterMap f⟩⟩
  induction text with
  | nil => rfl
  | cons a t ih =>
    rw [List.countP_cons, ← ih]
    simp only [hf, Outcome.ok.injEq]
    cases h : f a with
    | none => simp [h]
    | some b => simp [h, List.count_cons]

/-- C100: of the modifiers that are no ligature translators only converters and eliminators make of texts with the
same characters in another order such texts always. -/
theorem C100_modifiers (σ : Oracle) (k v : YValue) (s : Step) (hd : Describes k v s) (hl : ∀ r, s ≠ .ligature r) :
    ∃ m, ModifierKind.fromYaml σ k v = .ok m ∧
      ((∀ τ τ' (a b oa ob : Str), a.Perm b → m.modify τ a = .ok oa → m.modify τ' b = .ok ob → oa.Perm ob) ↔
        (∃ l, s = .convert l) ∨ ∃ cs, s = .eliminate cs) := by
  obtain ⟨m, h1, h2⟩ := describes_ok hd σ
  have hf := step_function hl h2.2
  refine ⟨m, h1, ?_⟩
  have key : (∀ τ τ' (a b oa ob : Str), a.Perm b → m.modify τ a = .ok oa → m.modify τ' b = .ok ob → oa.Perm ob) ↔
      ∀ a b : Str, a.Perm b → (s.does a).Perm (s.does b) := by
    constructor
    · exact fun h a b hab => h .insertion .insertion a b _ _ hab (hf _ a) (hf _ b)
    · intro h τ τ' a b oa ob hab ha hb
      rw [hf, Outcome.ok.injEq] at ha hb
      subst ha hb
      exact h a b hab
  rw [key]
  cases s with
  | convert l => exact ⟨fun _ => .inl ⟨l, rfl⟩, fun _ a b h => h.map _⟩
  | eliminate cs => exact ⟨fun _ => .inr ⟨cs, rfl⟩, fun _ a b h => h.filter _⟩
  | reduce c =>
    refine ⟨fun h => ?_, by simp⟩
    obtain ⟨z, hz⟩ : ∃ z : Char, z ≠ c := by
      by_cases hc : c = 'x'
      · exact ⟨'y', by rw [hc]; decide⟩
      · exact ⟨'x', fun e => hc e.symm⟩
    have := (h [c, c, z] [c, z, c] (.cons _ (.swap _ _ _))).length_eq
    simp [Step.act, squeeze, hz] at this
  | spaces =>
    refine ⟨fun h => ?_, by simp⟩
    exact absurd (h (c! "1 1") (c! " 11") (.swap _ _ _)).length_eq (by decide)
  | trim =>
    refine ⟨fun h => ?_, by simp⟩
    exact absurd (h (c! "1 1") (c! " 11") (.swap _ _ _)).length_eq (by decide)
  | neologdn =>
    refine ⟨fun h => ?_, by simp⟩
    exact absurd (h (c! "1 1") (c! " 11") (.swap _ _ _)).length_eq (by decide +kernel)
  | ligature r => exact (hl r rfl).elim

theorem rotate_same {a : Char} : ∀ {l : Str}, l ++ [a] = a :: l → ∀ c ∈ l, c = a
  | [], _ => by simp
  | b :: l, h => by
    injection h with h1 h2
    subst h1
    intro c hc
    rcases List.mem_cons.mp hc with rfl | hc
    · rfl
    · exact rotate_same h2 c hc

theorem strReplace_perm {k v : Str} (h : v.Perm k) (t : Str) : (strReplace k v t).Perm t := by
  rw [List.perm_iff_count] at h ⊢
  intro c
  have hc : ∀ l : Str, (l.flatMap fun d => if d = c then [()] else []).length = l.count c := by
    intro l
    induction l with
    | nil => rfl
    | cons d l ih =>
      rw [List.flatMap_cons, List.length_append, ih, List.count_cons]
      by_cases hd : d = c <;> simp [hd, Nat.add_comm]
  have hu : ∀ l l' : List Unit, l.length = l'.length → l = l' := fun l l' h => List.ext_getElem h fun _ _ _ => rfl
  rw [← hc, ← hc, strReplace_flatMap _ (hu _ _ (by rw [hc, hc, h]))]

/-- C100: a ligature translator with one rule does exactly if the key has at most one character or the value has the
characters of the key. -/
theorem C100_one_rule (k v : Str) :
    (∀ σ τ (a b : Str), a.Perm b →
      (LigatureTranslator.modify ⟨[(k, v)]⟩ σ a).Perm (LigatureTranslator.modify ⟨[(k, v)]⟩ τ b)) ↔
    k.length ≤ 1 ∨ v.Perm k := by
  simp only [one_rule]
  constructor
  · intro h
    have h : ∀ a b : Str, a.Perm b → (strReplace k v a).Perm (strReplace k v b) := h .insertion .insertion
    match k, h with
    | [], _ => exact .inl (by simp)
    | [a], _ => exact .inl (by simp)
    | a :: b :: l, h =>
      refine .inr ?_
      have hk : a :: b :: l ≠ [] := by simp
      have hit : strReplace (a :: b :: l) v (a :: b :: l) = v := by
        have := strReplace_hit hk v []
        rwa [List.append_nil, strReplace_nil hk, List.append_nil] at this
      by_cases hr : (b :: l) ++ [a] = a :: b :: l
      · have hall := rotate_same hr
        obtain ⟨z, hz⟩ : ∃ z : Char, z ≠ a := by
          by_cases hc : a = 'x'
          · exact ⟨'y', by rw [hc]; decide⟩
          · exact ⟨'x', fun e => hc e.symm⟩
        have hzk : z ∉ a :: b :: l := by
          intro hm
          rcases List.mem_cons.mp hm with e | hm
          · exact hz e
          · exact hz (hall z hm)
        have h1 := h (a :: b :: l ++ [z]) ([a] ++ z :: b :: l)
          (List.Perm.cons a (List.perm_append_comm (l₁ := b :: l) (l₂ := [z])))
        rw [strReplace_hit hk, strReplace_short hk v [z] (by simp), strReplace_sep _ _ hzk,
          strReplace_short hk v [a] (by simp), strReplace_short hk v (b :: l) (by simp)] at h1
        have h2 : (z :: v).Perm (z :: a :: b :: l) :=
          (List.perm_append_comm (l₁ := [z]) (l₂ := v)).trans (h1.trans (.swap _ _ _))
        exact (List.perm_cons z).mp h2
      · have h1 := h (a :: b :: l) ((b :: l) ++ [a]) (List.perm_append_comm (l₁ := [a]) (l₂ := b :: l))
        rw [hit, strReplace_absent hk v (fun hi => hr (hi.eq_of_length (by simp)).symm)] at h1
        exact h1.trans (List.perm_append_comm (l₁ := b :: l) (l₂ := [a]))
  · intro h _ _ a b hab
    rcases h with h | h
    · match k, h with
      | [], _ => exact (hab.flatMap_right _).append_left v
      | [c], _ => rw [strReplace_char, strReplace_char]; exact hab.flatMap_right _
    · exact (strReplace_perm h a).trans (hab.trans (strReplace_perm h b).symm)

/-- Pipelines, modifiers and rules to which the theorems apply. -/
example : ∀ m ∈ (Chanoma.mk [.characterConverter (.fromMap (HMap.collect [('a', 'b')])),
    .characterEliminator ⟨['c']⟩]).modifiers, m.CharByChar := by simp [ModifierKind.CharByChar]
example : Describes (.string (c! "trim")) .null .trim := .trim
example : (c! "ba").Perm (c! "ab") ∧ ¬ (c! "b").Perm (c! "ab") := by decide

end Chanoma
