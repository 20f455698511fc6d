import Verif.Spec.Kinds
import Verif.Props.Context
import Verif.Props.LigatureExact
/-! # C98: short texts tell the modifiers apart -/

namespace Chanoma

/-- What a step that is no ligature translator does to a text. -/
abbrev Step.does (s : Step) : Str → Str := match s with | .neologdn => neologdnSpec | s => s.act

theorem sameFunction_symm {s s' : Step} (h : SameFunction s s') : SameFunction s' s := by
  cases s <;> cases s' <;> simp_all [SameFunction]

theorem sameFunction_does {s s' : Step} (h : SameFunction s s') : s.does = s'.does := by
  have hmap : ∀ l cs, (∀ c, image l c = c) → cs = [] → Step.act (.convert l) = Step.act (.eliminate cs) := by
    rintro l cs h rfl
    funext t
    simp only [Step.act]
    rw [show image l = id from funext h, List.map_id, List.filter_eq_self.2 (by simp)]
  cases s <;> cases s' <;> simp only [SameFunction] at h <;> try exact h.elim
  · funext t; simp only [Step.does, Step.act]; rw [funext h]
  · exact hmap _ _ h.1 h.2
  · exact (hmap _ _ h.1 h.2).symm
  · funext t; simp only [Step.does, Step.act, h]
  · rw [h]
  all_goals rfl

theorem does_short {s s' : Step} (hl : ∀ r, s ≠ .ligature r) (hl' : ∀ r, s' ≠ .ligature r)
    (h : ∀ t : Str, t.length ≤ 3 → s.does t = s'.does t) : SameFunction s s' := by
  have n1 : neologdnSpec [' '] = [] := by decide +kernel
  have n2 : neologdnSpec ['Ａ'] = ['A'] := by decide +kernel
  have d1 : dGo false false [' '] = [] := by decide
  have t1 : trimModify [' '] = [] := by decide
  have hsp := h [' '] (by decide)
  have ha := h ['Ａ'] (by decide)
  have h11 := h (c! "1 1") (by decide)
  have hk := h (c! "あ あ") (by decide)
  have conv : ∀ l t, (Step.act (.convert l) t).length = t.length := fun l t => by simp [Step.act]
  have elim1 : ∀ cs : List Char, ['A'] ≠ ['Ａ'].filter fun c => decide (c ∉ cs) := fun cs e => by
    have : 'A' ∈ ['Ａ'].filter fun c => decide (c ∉ cs) := e ▸ List.mem_singleton.2 rfl
    exact absurd (List.mem_singleton.1 (List.mem_filter.1 this).1) (by decide)
  have elim2 : ∀ cs : List Char, [] = [' '].filter (fun c => decide (c ∉ cs)) →
      c! "1 1" ≠ (c! "1 1").filter fun c => decide (c ∉ cs) := fun cs e1 e2 => by
    have hm : ' ' ∈ cs := by
      refine Classical.byContradiction fun hn => ?_
      rw [List.filter_cons_of_pos (by simpa using hn)] at e1
      exact absurd e1 (by simp)
    have : ' ' ∈ (c! "1 1").filter fun c => decide (c ∉ cs) := e2 ▸ (by decide)
    exact absurd hm (by simpa using (List.mem_filter.1 this).2)
  have red1 : ∀ c, squeeze c [c, c] = [c] := fun c => squeeze_replicate c 1
  have red2 : ∀ c a, squeeze c [a] = [a] := fun c a => by simp [squeeze]
  have redelim : ∀ (c : Char) (cs : List Char), (∀ t : Str, t.length ≤ 3 → squeeze c t = t.filter fun d => decide (d ∉ cs)) → False := by
    intro c cs h
    have e1 := h [c] (by simp)
    have e2 := h [c, c] (by simp)
    rw [red2] at e1
    rw [red1] at e2
    have hc : c ∉ cs := fun hc => absurd e1 (by rw [List.filter_cons_of_neg (by simpa using hc)]; simp)
    rw [List.filter_cons_of_pos (by simpa using hc), List.filter_cons_of_pos (by simpa using hc)] at e2
    exact absurd e2 (by simp)
  cases s with
  | ligature r => exact absurd rfl (hl r)
  | convert l =>
    cases s' with
    | ligature r => exact absurd rfl (hl' r)
    | convert l' => intro c; simpa [Step.does, Step.act] using h [c] (by simp)
    | eliminate cs =>
      have hc : ∀ c, [image l c] = [c].filter fun d => decide (d ∉ cs) := fun c => h [c] (by simp)
      have hn : ∀ c, c ∉ cs := fun c hm => by
        have := hc c
        rw [List.filter_cons_of_neg (by simpa using hm)] at this
        simp at this
      refine ⟨fun c => ?_, List.eq_nil_iff_forall_not_mem.2 hn⟩
      have := hc c
      rw [List.filter_cons_of_pos (by simpa using hn c)] at this
      exact (List.cons.inj this).1
    | reduce c =>
      have := congrArg List.length (h [c, c] (by simp))
      simp [Step.does, Step.act, red1] at this
    | spaces => have := congrArg List.length hsp; simp [Step.does, Step.act, d1] at this
    | trim => have := congrArg List.length hsp; simp [Step.does, Step.act, t1] at this
    | neologdn => have := congrArg List.length hsp; simp [Step.does, Step.act, n1] at this
  | eliminate cs =>
    cases s' with
    | ligature r => exact absurd rfl (hl' r)
    | convert l =>
      have hc : ∀ c, [image l c] = [c].filter fun d => decide (d ∉ cs) := fun c => (h [c] (by simp)).symm
      have hn : ∀ c, c ∉ cs := fun c hm => by
        have := hc c
        rw [List.filter_cons_of_neg (by simpa using hm)] at this
        simp at this
      refine ⟨fun c => ?_, List.eq_nil_iff_forall_not_mem.2 hn⟩
      have := hc c
      rw [List.filter_cons_of_pos (by simpa using hn c)] at this
      exact (List.cons.inj this).1
    | eliminate cs' =>
      intro c
      have := h [c] (by simp)
      by_cases h1 : c ∈ cs <;> by_cases h2 : c ∈ cs' <;> simp [Step.does, Step.act, h1, h2] at this ⊢
    | reduce c => exact (redelim c cs fun t ht => (h t ht).symm).elim
    | spaces => exact (elim2 cs hsp.symm h11.symm).elim
    | trim => exact (elim2 cs hsp.symm h11.symm).elim
    | neologdn => exact (elim1 cs (n2.symm.trans ha.symm)).elim
  | reduce c =>
    cases s' with
    | ligature r => exact absurd rfl (hl' r)
    | convert l =>
      have := congrArg List.length (h [c, c] (by simp))
      simp [Step.does, Step.act, red1] at this
    | eliminate cs => exact (redelim c cs h).elim
    | reduce c' =>
      have := h [c, c] (by simp)
      simp only [Step.does, Step.act, red1] at this
      refine Classical.byContradiction fun hne => ?_
      rw [squeeze_not_mem (t := [c, c]) (by simpa using Ne.symm hne)] at this
      simp at this
    | spaces => simp [Step.does, Step.act, red2, d1] at hsp
    | trim => simp [Step.does, Step.act, red2, t1] at hsp
    | neologdn => simp [Step.does, Step.act, red2, n1] at hsp
  | spaces =>
    cases s' with
    | ligature r => exact absurd rfl (hl' r)
    | convert l => have := congrArg List.length hsp; simp [Step.does, Step.act, d1] at this
    | eliminate cs => exact (elim2 cs hsp h11).elim
    | reduce c => simp [Step.does, Step.act, red2, d1] at hsp
    | spaces => trivial
    | trim => exact absurd hk (by decide)
    | neologdn => exact absurd (ha.trans n2) (by decide)
  | trim =>
    cases s' with
    | ligature r => exact absurd rfl (hl' r)
    | convert l => have := congrArg List.length hsp; simp [Step.does, Step.act, t1] at this
    | eliminate cs => exact (elim2 cs hsp h11).elim
    | reduce c => simp [Step.does, Step.act, red2, t1] at hsp
    | spaces => exact absurd hk (by decide)
    | trim => trivial
    | neologdn => exact absurd (ha.trans n2) (by decide)
  | neologdn =>
    cases s' with
    | ligature r => exact absurd rfl (hl' r)
    | convert l => have := congrArg List.length hsp; simp [Step.does, Step.act, n1] at this
    | eliminate cs => exact (elim1 cs (n2.symm.trans ha)).elim
    | reduce c => simp [Step.does, Step.act, red2, n1] at hsp
    | spaces => exact absurd (n2.symm.trans ha) (by decide)
    | trim => exact absurd (n2.symm.trans ha) (by decide)
    | neologdn => trivial

/-- C98: two modifiers that are no ligature translators do the same to all texts exactly if they do the same to
all texts of at most three characters, and exactly if they are of the same kind and say the same or are a converter
and an eliminator that change nothing. -/
theorem C98_three_characters (σ : Oracle) (k v k' v' : YValue) (s s' : Step) (hd : Describes k v s)
    (hd' : Describes k' v' s') (hl : ∀ r, s ≠ .ligature r) (hl' : ∀ r, s' ≠ .ligature r) :
    ∃ m m', ModifierKind.fromYaml σ k v = .ok m ∧ ModifierKind.fromYaml σ k' v' = .ok m' ∧
      ((∀ τ τ' text, m.modify τ text = m'.modify τ' text) ↔
        ∀ τ τ' (text : Str), text.length ≤ 3 → m.modify τ text = m'.modify τ' text) ∧
      ((∀ τ τ' text, m.modify τ text = m'.modify τ' text) ↔ SameFunction s s') := by
  obtain ⟨m, h1, h2⟩ := describes_ok hd σ
  obtain ⟨m', h1', h2'⟩ := describes_ok hd' σ
  have hf := step_function hl h2.2
  have hf' := step_function hl' h2'.2
  have short : (∀ τ τ' (text : Str), text.length ≤ 3 → m.modify τ text = m'.modify τ' text) → SameFunction s s' := by
    intro h
    refine does_short hl hl' fun t ht => ?_
    have := h .insertion .insertion t ht
    rw [hf, hf', Outcome.ok.injEq] at this
    exact this
  have all : SameFunction s s' → ∀ τ τ' text, m.modify τ text = m'.modify τ' text := by
    intro h τ τ' text
    rw [hf, hf']
    exact congrArg Outcome.ok (congrFun (sameFunction_does h) text)
  exact ⟨m, m', h1, h1', ⟨fun h τ τ' t _ => h τ τ' t, fun h => all (short h)⟩,
    ⟨fun h => short fun τ τ' t _ => h τ τ' t, all⟩⟩

/-- C98: two characters are not enough: on texts of at most two characters trim and the dotted-space rule do the
same, on `あ あ` they do not. -/
theorem C98_not_two : (∀ text : Str, text.length ≤ 2 → trimModify text = dottedModify text) ∧
    trimModify (c! "あ あ") ≠ dottedModify (c! "あ あ") := by
  refine ⟨fun text h => ?_, by decide⟩
  rw [dotted_eq_dGo]
  match text with
  | [] => decide
  | [a] =>
    by_cases ha : a = ' '
    · subst ha; decide
    · simp [trimModify, trimMatches, trimStartMatches, trimEndMatches, dGo, ha]
  | [a, b] =>
    by_cases ha : a = ' ' <;> by_cases hb : b = ' '
    · subst ha hb; decide
    · subst ha; simp [trimModify, trimMatches, trimStartMatches, trimEndMatches, dGo, hb]
    · subst hb; simp [trimModify, trimMatches, trimStartMatches, trimEndMatches, dGo, ha]
    · simp [trimModify, trimMatches, trimStartMatches, trimEndMatches, dGo, ha, hb]
  | _ :: _ :: _ :: _ => simp at h

/-- C98: a ligature translator with one rule does what some modifier of another kind does exactly if the rule
replaces a text by itself or one character by at most one. -/
theorem C98_one_rule (σ : Oracle) (k v : Str) :
    (∃ y z s m, Describes y z s ∧ (∀ r, s ≠ .ligature r) ∧ ModifierKind.fromYaml σ y z = .ok m ∧
      ∀ τ τ' text, m.modify τ text = .ok (LigatureTranslator.modify ⟨[(k, v)]⟩ τ' text)) ↔
    k = v ∨ (k.length = 1 ∧ v.length ≤ 1) := by
  constructor
  · rintro ⟨y, z, s, m, hd, hl, hm, h⟩
    obtain ⟨m', h1, h2⟩ := describes_ok hd σ
    rw [hm] at h1; cases h1
    have hf : ∀ t, s.does t = strReplace k v t := fun t => by
      have h3 := h .insertion .insertion t
      rw [step_function hl h2.2, one_rule, Outcome.ok.injEq] at h3
      exact h3
    by_cases hk : k = []
    · subst hk
      left
      have h0 : s.does [] = [] := by
        cases s with
        | ligature r => exact absurd rfl (hl r)
        | neologdn => decide +kernel
        | trim => decide
        | _ => rfl
      rw [hf] at h0
      simpa [strReplace] using h0.symm
    have hself : strReplace k v k = v := by
      have := strReplace_hit hk v []
      rwa [List.append_nil, strReplace_nil hk, List.append_nil] at this
    have space : s.does [' '] = [] → s.does (c! "1 1") = c! "1 1" → False := by
      intro e1 e2
      have hin : k <:+: [' '] := by
        refine Classical.byContradiction fun hn => ?_
        rw [hf, strReplace_absent hk v hn] at e1
        simp at e1
      have hk1 : k = [' '] := by
        obtain ⟨p, q, e⟩ := hin
        have := congrArg List.length e
        have hpos := List.length_pos_iff.2 hk
        simp at this
        have hp : p = [] := List.length_eq_zero_iff.1 (by omega)
        have hq : q = [] := List.length_eq_zero_iff.1 (by omega)
        simpa [hp, hq] using e
      subst hk1
      have hv : v = [] := by rw [← hself, ← hf, e1]
      subst hv
      rw [hf] at e2
      exact absurd e2 (by decide)
    have pieces : (∀ a b, s.does (a ++ b) = s.does a ++ s.does b) → s.does [] = [] → (∀ c, (s.does [c]).length ≤ 1) →
        k = v ∨ (k.length = 1 ∧ v.length ≤ 1) := by
      intro hj h0 h1
      by_cases hlen : k.length = 1
      · obtain ⟨a, rfl⟩ := List.length_eq_one_iff.1 hlen
        right
        refine ⟨rfl, ?_⟩
        rw [← hself, ← hf]
        exact h1 a
      · left
        have hpos := List.length_pos_iff.2 hk
        have single : ∀ c, s.does [c] = [c] := fun c => by
          rw [hf]; exact strReplace_short hk v [c] (by simp; omega)
        have id : ∀ t, s.does t = t := by
          intro t
          induction t with
          | nil => exact h0
          | cons c t ih => rw [← List.singleton_append, hj, ih, single]
        rw [← hself, ← hf, id]
    cases s with
    | ligature r => exact absurd rfl (hl r)
    | convert l => exact pieces (fun a b => by simp [Step.does, Step.act]) rfl fun c => by simp [Step.does, Step.act]
    | eliminate cs =>
      exact pieces (fun a b => by simp [Step.does, Step.act]) rfl fun c => List.length_filter_le _ _
    | reduce c =>
      left
      have single : ∀ a, strReplace k v [a] = [a] := fun a => by rw [← hf]; simp [Step.does, Step.act, squeeze]
      by_cases hlen : k.length = 1
      · obtain ⟨a, rfl⟩ := List.length_eq_one_iff.1 hlen
        rw [← hself, single]
      · have hpos := List.length_pos_iff.2 hk
        have e2 : strReplace k v [c, c] = [c] := by rw [← hf]; exact squeeze_replicate c 1
        have e3 : strReplace k v [c, c, c] = [c] := by rw [← hf]; exact squeeze_replicate c 2
        have hin : k <:+: [c, c] := by
          refine Classical.byContradiction fun hn => ?_
          rw [strReplace_absent hk v hn] at e2
          simp at e2
        have hk2 : k = [c, c] := by
          obtain ⟨p, q, e⟩ := hin
          have := congrArg List.length e
          simp at this
          have hp : p = [] := List.length_eq_zero_iff.1 (by omega)
          have hq : q = [] := List.length_eq_zero_iff.1 (by omega)
          simpa [hp, hq] using e
        subst hk2
        have h4 := strReplace_hit hk v [c]
        rw [strReplace_short hk v [c] (by simp)] at h4
        rw [hself] at e2
        have h5 : strReplace [c, c] v [c, c, c] = v ++ [c] := h4
        rw [e3, e2] at h5
        exact absurd h5 (by simp)
    | spaces => exact (space (by decide) (by decide)).elim
    | trim => exact (space (by decide) (by decide)).elim
    | neologdn => exact (space (by decide +kernel) (by decide +kernel)).elim
  · have make : ∀ y z s, Describes y z s → (∀ r, s ≠ .ligature r) → (∀ t, s.does t = strReplace k v t) →
        ∃ y z s m, Describes y z s ∧ (∀ r, s ≠ .ligature r) ∧ ModifierKind.fromYaml σ y z = .ok m ∧
          ∀ τ τ' text, m.modify τ text = .ok (LigatureTranslator.modify ⟨[(k, v)]⟩ τ' text) := by
      intro y z s hd hl hs
      obtain ⟨m, h1, h2⟩ := describes_ok hd σ
      refine ⟨y, z, s, m, hd, hl, h1, fun τ τ' text => ?_⟩
      rw [step_function hl h2.2, one_rule]
      exact congrArg _ (hs text)
    rintro (rfl | ⟨h1, h2⟩)
    · refine make _ _ _ (.eliminate []) (by simp) fun t => ?_
      have : (Step.eliminate []).does t = t := by simp [Step.does, Step.act]
      refine Eq.trans this ?_
      by_cases hk : k = []
      · subst hk; simp [strReplace]
      · exact (strReplace_self hk t).symm
    · obtain ⟨a, rfl⟩ := List.length_eq_one_iff.1 h1
      match v with
      | [] =>
        refine make _ _ _ (.eliminate [(a, [])]) (by simp) fun t => ?_
        rw [strReplace_char]
        show t.filter _ = _
        induction t with
        | nil => rfl
        | cons c t ih => by_cases hc : c = a <;> simp_all
      | [b] =>
        refine make _ _ _ (.convert [((a, []), (b, []))]) (by simp) fun t => ?_
        rw [strReplace_char]
        show t.map _ = _
        induction t with
        | nil => rfl
        | cons c t ih => by_cases hc : c = a <;> simp_all [image, lastPair, Ne.symm, eq_comm]
      | _ :: _ :: _ => simp at h2

/-- Descriptions as in `C98_three_characters`: two that do the same and two that do not. -/
example : Describes (.string (c! "character_eliminator")) (.sequence []) (.eliminate []) ∧
    Describes (.string (c! "character_converter")) (.mapping [(.string (c! "a"), .string (c! "a"))]) (.convert [('a', 'a')]) ∧
    SameFunction (.eliminate []) (.convert [('a', 'a')]) ∧ ¬ SameFunction .trim .spaces := by
  refine ⟨.eliminate [], .convert [(('a', []), ('a', []))], ⟨fun c => ?_, rfl⟩, id⟩
  by_cases h : 'a' = c
  · subst h; decide
  · simp [image, lastPair, h]

end Chanoma
