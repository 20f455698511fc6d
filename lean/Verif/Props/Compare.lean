import Verif.Props.Pipeline
import Verif.Props.Neologdn
import Verif.Props.Sets
import Verif.Props.Lines
/-! # C58, C59: preset against neologdn, and lengths -/

namespace Chanoma

/-! ## C58 -/

theorem fold_presetFold (c : Char) : neologdnFold (presetFold c) = foldEqual (neologdnFold c) := by
  by_cases h : presetFold c = c
  · rw [h]
    unfold foldEqual
    split
    · rename_i e
      have h2 : c = '＝' := by
        unfold neologdnFold at e
        split at e
        · assumption
        · split at e
          · exact absurd e (by decide)
          · split at e
            · exact absurd e (by decide)
            · rw [h] at e; exact e
      rw [h2] at h
      exact absurd h (by decide)
    · rfl
  · exact moved_cases (P := fun c => neologdnFold (presetFold c) = foldEqual (neologdnFold c))
      (by decide +kernel) (presetFold_ne h)

theorem preset_of_folded {c : Char} (h : neologdnFold c = c) : presetFold c = foldEqual c := by
  unfold foldEqual
  split
  · rename_i e; rw [e]; decide
  · rename_i e
    unfold neologdnFold at h
    rw [if_neg e] at h
    split at h
    · rw [← h]; decide
    · split at h
      · rw [← h]; decide
      · exact h

theorem squeeze_map {g : Char → Char} {c : Char} (h : ∀ a, g a = c ↔ a = c) (t : Str) :
    squeeze c (t.map g) = (squeeze c t).map g := by
  induction t with
  | nil => rfl
  | cons a t ih =>
    have hh : (t.map g).head? = some c ↔ t.head? = some c := by
      cases t with
      | nil => simp
      | cons b t => simp [h]
    rw [List.map_cons, squeeze, squeeze]
    by_cases hc : a = c ∧ t.head? = some c
    · rw [if_pos hc, if_pos ⟨(h a).mpr hc.1, hh.mpr hc.2⟩, ih]
    · rw [if_neg hc, if_neg (fun e => hc ⟨(h a).mp e.1, hh.mp e.2⟩), ih]; rfl

theorem dGo_map {g : Char → Char} (h : ∀ a, g a = ' ' ↔ a = ' ')
    (h2 : ∀ a, isAsciiAlphanumeric (g a) = isAsciiAlphanumeric a) (t : Str) :
    ∀ p sp, dGo p sp (t.map g) = (dGo p sp t).map g := by
  induction t with
  | nil => intro p sp; rfl
  | cons a t ih =>
    intro p sp
    rw [List.map_cons, dGo, dGo]
    by_cases ha : a = ' '
    · rw [if_pos ha, if_pos ((h a).mpr ha), ih]
    · rw [if_neg ha, if_neg (fun e => ha ((h a).mp e)), ih, h2]
      split <;> simp [(h ' ').mpr rfl]

theorem spaceRule_map {g : Char → Char} (h : ∀ a, g a = ' ' ↔ a = ' ')
    (h2 : ∀ a, isAsciiAlphanumeric (g a) = isAsciiAlphanumeric a) (t : Str) :
    spaceRule (t.map g) = (spaceRule t).map g := by
  simp only [← dotted_eq, dotted_eq_dGo]
  exact dGo_map h h2 t _ _

theorem compose_map {g : Char → Char} (h : ∀ a m, voiced (g a) (g m) = (voiced a m).map g) (t : Str) :
    composeMarks (t.map g) = (composeMarks t).map g := by
  induction t using compose_induction with
  | h0 => rfl
  | h1 a => rfl
  | h2 a m t b hv ih =>
    have hv' : voiced (g a) (g m) = some (g b) := by rw [h, hv]; rfl
    rw [List.map_cons, List.map_cons, compose_hit hv, compose_hit hv', ih]; rfl
  | h3 a m t hv ih =>
    have hv' : voiced (g a) (g m) = none := by rw [h, hv]; rfl
    rw [List.map_cons, List.map_cons, compose_keep hv, compose_keep hv']
    rw [List.map_cons] at ih
    rw [ih]; rfl

theorem foldEqual_iff {c : Char} (h1 : c ≠ '=') (h2 : c ≠ '＝') (a : Char) : foldEqual a = c ↔ a = c := by
  unfold foldEqual
  split
  · rename_i e
    constructor
    · intro h; exact absurd h.symm h1
    · intro h; rw [e] at h; exact absurd h.symm h2
  · rfl

theorem voiced_foldEqual (a m : Char) : voiced (foldEqual a) (foldEqual m) = (voiced a m).map foldEqual := by
  have key : ∀ r ∈ neologdnLigatures, '＝' ∉ r.1 ∧ '=' ∉ r.1 ∧ '＝' ∉ r.2 := by decide +kernel
  cases hv : voiced a m with
  | none =>
    cases hv' : voiced (foldEqual a) (foldEqual m) with
    | none => rfl
    | some b =>
      have hb := (key _ (voiced_cases hv')).2.1
      have ha : foldEqual a = a := by
        unfold foldEqual at hb ⊢
        split at hb
        · simp at hb
        · simp_all
      have hm : foldEqual m = m := by
        unfold foldEqual at hb ⊢
        by_cases e : m = '＝'
        · simp [e] at hb
        · simp [e]
      rw [ha, hm, hv] at hv'; cases hv'
  | some b =>
    have hb := key _ (voiced_cases hv)
    simp only [List.mem_cons, List.not_mem_nil, or_false, not_or] at hb
    obtain ⟨⟨h1, h2⟩, -, h3⟩ := hb
    rw [foldEqual, if_neg (fun e => h1 e.symm), foldEqual, if_neg (fun e => h2 e.symm), hv]
    rw [Option.map_some, foldEqual, if_neg (fun e => h3 e.symm)]

theorem neologdn_preset (t : Str) : neologdnSpec (t.map presetFold) = (neologdnSpec t).map foldEqual := by
  unfold neologdnSpec
  have h1 : (t.map presetFold).map neologdnFold = (t.map neologdnFold).map foldEqual := by
    simp only [List.map_map]
    exact List.map_congr_left fun c _ => fold_presetFold c
  have h2 : ∀ a, isAsciiAlphanumeric (foldEqual a) = isAsciiAlphanumeric a := by
    intro a
    unfold foldEqual
    split
    · rename_i e; rw [e]; decide
    · rfl
  have h3 : ∀ s : Str, (s.map foldEqual).filter (· ∉ tildeChars) = (s.filter (· ∉ tildeChars)).map foldEqual := by
    intro s
    rw [List.filter_map]
    congr 1
    apply List.filter_congr
    intro c _
    simp only [Function.comp, decide_eq_decide]
    unfold foldEqual
    split
    · rename_i e; rw [e]; decide
    · rfl
  rw [h1, squeeze_map (foldEqual_iff (by decide) (by decide)),
    spaceRule_map (foldEqual_iff (by decide) (by decide)) h2, h3, compose_map voiced_foldEqual]

theorem preset_neologdn (t : Str) : (neologdnSpec t).map presetFold = (neologdnSpec t).map foldEqual :=
  List.map_congr_left fun c hc => preset_of_folded ((spec_normal t).folded c hc).1

/-- C58: the preset and neologdn, in either order, give what neologdn alone gives, with `＝` replaced
by `=`. -/
theorem C58_either_order (σ τ : Oracle) (calls : List Call)
    (hcalls : calls = [.usePreset σ, .useNeologdn τ] ∨ calls = [.useNeologdn τ, .usePreset σ]) :
    ∃ c n, calls.foldlM Call.run Chanoma.new = .ok c ∧ Chanoma.neologdn τ = .ok n ∧
      ∀ σs debug text, ∃ out, n.normalize σs debug text = .ok out ∧
        c.normalize σs debug text = .ok (out.map foldEqual) := by
  obtain ⟨n, hn1, hn2⟩ := C16_neologdn τ
  have hok : ∃ c, calls.foldlM Call.run Chanoma.new = .ok c := by
    refine (C22_call_order Chanoma.new calls).1.2 ?_
    rcases hcalls with rfl | rfl <;> simp [Call.Accepted]
  obtain ⟨c, hc⟩ := hok
  refine ⟨c, n, hc, hn1, fun σs debug text => ⟨_, hn2 σs debug text, ?_⟩⟩
  have hm : calls.foldl Call.meaning text = (neologdnSpec text).map foldEqual := by
    rcases hcalls with rfl | rfl
    · exact neologdn_preset text
    · exact preset_neologdn text
  have h := C22_from_new calls c hc σs text
  rw [← hm]
  cases debug with
  | false => exact h.1
  | true => exact h.2 (by rcases hcalls with rfl | rfl <;> simp)

theorem equal_cuts : CutsNeologdn '＝' :=
  cutsNeologdn_of (by decide +kernel) (by decide +kernel)

/-- C58: neologdn keeps every `＝`, so the results differ exactly on the texts with a `＝`. -/
theorem C58_differ_iff (σ τ : Oracle) (c n : Chanoma)
    (hc : [Call.usePreset σ, .useNeologdn τ].foldlM Call.run Chanoma.new = .ok c)
    (hn : Chanoma.neologdn τ = .ok n) (σs : Nat → Oracle) (debug : Bool) (text : Str) :
    c.normalize σs debug text = n.normalize σs debug text ↔ '＝' ∉ text := by
  obtain ⟨c', n', h1, h2, h3⟩ := C58_either_order σ τ _ (.inl rfl)
  rw [hc] at h1; rw [hn] at h2; cases h1; cases h2
  obtain ⟨out, h4, h5⟩ := h3 σs debug text
  obtain ⟨n', h6, h7⟩ := C16_neologdn τ
  rw [hn] at h6; cases h6
  rw [h7] at h4; cases h4
  rw [h5, h7]
  have hmem : '＝' ∈ neologdnSpec text ↔ '＝' ∈ text := by
    constructor
    · intro h
      rcases compose_mem h with h | ⟨a, m, hv⟩
      · rw [List.mem_filter, ← dotted_eq, dotted_eq_dGo] at h
        rcases dGo_mem h.1 with h | h
        · obtain ⟨d, hd, e⟩ := List.mem_map.mp (squeeze_mem h)
          have : d = '＝' := by
            unfold neologdnFold at e
            split at e
            · assumption
            · split at e
              · exact absurd e (by decide)
              · split at e
                · exact absurd e (by decide)
                · rename_i h1 _ _
                  by_cases hp : presetFold d = d
                  · rw [← hp]; exact e
                  · exact absurd e (moved_cases (P := fun d => ¬ presetFold d = '＝') (by decide +kernel)
                      (presetFold_ne hp))
          rw [← this]; exact hd
        · exact absurd h (by decide)
      · have : ∀ r ∈ neologdnLigatures, '＝' ∉ r.2 := by decide +kernel
        exact absurd (by simp) (this _ (voiced_cases hv))
    · intro h
      obtain ⟨a, b, rfl⟩ := List.append_of_mem h
      rw [Cuts.neologdn equal_cuts a b]
      simp
  rw [← hmem, Outcome.ok.injEq]
  constructor
  · intro h hm
    have : '＝' ∈ (neologdnSpec text).map foldEqual := by rw [h]; exact hm
    obtain ⟨d, -, e⟩ := List.mem_map.mp this
    unfold foldEqual at e
    split at e
    · exact absurd e (by decide)
    · exact absurd e (by assumption)
  · intro h
    conv => rhs; rw [← List.map_id (neologdnSpec text)]
    apply List.map_congr_left
    intro d hd
    rw [foldEqual, if_neg (fun (e : d = '＝') => h (e ▸ hd))]; rfl

example : neologdnSpec (c! "Ａ＝ ｂ=") = c! "A＝b=" ∧
    neologdnSpec ((c! "Ａ＝ ｂ=").map presetFold) = c! "A=b=" ∧
    (neologdnSpec (c! "Ａ＝ ｂ=")).map presetFold = c! "A=b=" := by decide +kernel

/-! ## C59 -/

theorem squeeze_sublist (c : Char) (t : Str) : (squeeze c t).Sublist t := by
  induction t with
  | nil => simp [squeeze]
  | cons a t ih =>
    rw [squeeze]
    split
    · exact ih.cons a
    · exact ih.cons_cons a

theorem dGo_sublist (t : Str) : ∀ p sp, (dGo p sp t).Sublist (if sp then ' ' :: t else t) := by
  induction t with
  | nil => intro p sp; cases sp <;> simp [dGo]
  | cons a t ih =>
    intro p sp
    rw [dGo]
    split
    · rename_i ha
      have := ih p true
      cases sp with
      | true => exact (ha ▸ this).cons _
      | false => exact ha ▸ this
    · have := ih (isAsciiAlphanumeric a) false
      cases sp with
      | true =>
        split
        · exact (this.cons_cons a).cons_cons ' '
        · exact (this.cons_cons a).cons ' '
      | false => simpa using this.cons_cons a

theorem spaceRule_sublist (t : Str) : (spaceRule t).Sublist t := by
  rw [← dotted_eq, dotted_eq_dGo]; exact dGo_sublist t false false

theorem strLen_sublist {a b : Str} (h : a.Sublist b) : strLen a ≤ strLen b := by
  induction h with
  | slnil => exact Nat.le_refl _
  | cons c _ ih => rw [strLen_cons]; omega
  | cons_cons c _ ih => rw [strLen_cons, strLen_cons]; omega

theorem trimMatches_sublist (c : Char) (t : Str) : (trimMatches c t).Sublist t := by
  unfold trimMatches trimEndMatches trimStartMatches
  refine .trans ?_ (List.dropWhile_sublist (· == c))
  rw [← List.reverse_sublist, List.reverse_reverse]
  exact List.dropWhile_sublist _

theorem compose_len (t : Str) : (composeMarks t).length ≤ t.length ∧ strLen (composeMarks t) ≤ strLen t := by
  induction t using compose_induction with
  | h0 => exact ⟨Nat.le_refl _, Nat.le_refl _⟩
  | h1 a => exact ⟨Nat.le_refl _, Nat.le_refl _⟩
  | h2 a m t b hv ih =>
    have key : ∀ r ∈ neologdnLigatures, strLen r.2 ≤ strLen r.1 := by decide +kernel
    have := key _ (voiced_cases hv)
    rw [compose_hit hv]
    simp only [List.length_cons, strLen_cons] at this ⊢
    have e : strLen [] = 0 := rfl
    omega
  | h3 a m t hv ih =>
    rw [compose_keep hv]
    simp only [List.length_cons, strLen_cons] at ih ⊢
    omega

theorem strLen_map_le {g : Char → Char} (h : ∀ c, (g c).utf8Size ≤ c.utf8Size) (t : Str) :
    strLen (t.map g) ≤ strLen t := by
  induction t with
  | nil => exact Nat.le_refl _
  | cons a t ih =>
    have := h a
    rw [List.map_cons, strLen_cons, strLen_cons]; omega

theorem presetFold_size (c : Char) : (presetFold c).utf8Size ≤ c.utf8Size := by
  by_cases h : presetFold c = c
  · rw [h]; exact Nat.le_refl _
  · exact moved_cases (P := fun c => (presetFold c).utf8Size ≤ c.utf8Size) (by decide +kernel)
      (presetFold_ne h)

theorem neologdnFold_size (c : Char) : (neologdnFold c).utf8Size ≤ c.utf8Size := by
  unfold neologdnFold
  split
  · rename_i e; rw [e]; decide
  · split
    · rename_i h
      exact (by decide +kernel : ∀ c ∈ choonpuVariants, 'ー'.utf8Size ≤ c.utf8Size) c h
    · split
      · rename_i h
        exact (by decide +kernel : ∀ c ∈ hyphenVariants, '-'.utf8Size ≤ c.utf8Size) c h
      · exact presetFold_size c

theorem neologdn_len (t : Str) : (neologdnSpec t).length ≤ t.length ∧ strLen (neologdnSpec t) ≤ strLen t := by
  unfold neologdnSpec
  have h1 := compose_len ((spaceRule (squeeze 'ー' (t.map neologdnFold))).filter (· ∉ tildeChars))
  have h2 : ((spaceRule (squeeze 'ー' (t.map neologdnFold))).filter (· ∉ tildeChars)).Sublist (t.map neologdnFold) :=
    List.filter_sublist.trans ((spaceRule_sublist _).trans (squeeze_sublist _ _))
  have h3 := h2.length_le
  have h4 := strLen_sublist h2
  have h5 := strLen_map_le neologdnFold_size t
  rw [List.length_map] at h3
  omega

/-- C59: the modifiers that delete only delete: what they return is the input with some characters
left out, in the same order. -/
theorem C59_only_delete (m : ModifierKind)
    (hm : m = .trim ∨ m = .dottedSpaceEliminator ∨ (∃ x, m = .characterEliminator x) ∨
      ∃ x, m = .consecutiveCharacterReducer x) (σ : Oracle) (text : Str) :
    ∃ out, m.modify σ text = .ok out ∧ out.Sublist text := by
  rcases hm with rfl | rfl | ⟨x, rfl⟩ | ⟨x, rfl⟩
  · exact ⟨_, rfl, trimMatches_sublist _ _⟩
  · exact ⟨_, rfl, by rw [dotted_eq]; exact spaceRule_sublist _⟩
  · exact ⟨_, rfl, by rw [eliminator_eq]; exact List.filter_sublist⟩
  · exact ⟨_, rfl, by rw [reducer_eq]; exact squeeze_sublist _ _⟩

/-- C59: a pipeline built by calls never makes a text have more characters; without neologdn the
number of characters stays the same; with only the preset and neologdn the number of UTF-8 bytes
does not grow either. -/
theorem C59_never_longer (calls : List Call) (c : Chanoma)
    (hc : calls.foldlM Call.run Chanoma.new = .ok c) (σs : Nat → Oracle) (debug : Bool) (text out : Str)
    (ho : c.normalize σs debug text = .ok out) :
    out.length ≤ text.length ∧
    ((∀ σ, Call.useNeologdn σ ∉ calls) → out.length = text.length) ∧
    ((∀ t, Call.addTable t ∉ calls) → strLen out ≤ strLen text) := by
  have he : out = calls.foldl Call.meaning text := by
    have h := C22_from_new calls c hc σs text
    cases debug with
    | false => rw [h.1] at ho; cases ho; rfl
    | true =>
      by_cases hn : calls = []
      · subst hn
        cases hc
        rw [(C21_empty_pipeline σs text).1] at ho; cases ho
      · rw [h.2 hn] at ho; cases ho; rfl
  subst he
  clear ho hc
  induction calls generalizing text with
  | nil => exact ⟨Nat.le_refl _, fun _ => rfl, fun _ => Nat.le_refl _⟩
  | cons call calls ih =>
    obtain ⟨h1, h2, h3⟩ := ih (call.meaning text)
    rw [List.foldl_cons]
    have k1 : (call.meaning text).length ≤ text.length := by
      cases call with
      | usePreset σ => simp [Call.meaning]
      | useNeologdn σ => exact (neologdn_len text).1
      | addTable t => simp [Call.meaning, substitute]
    refine ⟨Nat.le_trans h1 k1, fun hn => ?_, fun hn => ?_⟩
    · rw [h2 (fun σ h => hn σ (by simp [h]))]
      cases call with
      | usePreset σ => simp [Call.meaning]
      | useNeologdn σ => exact absurd (by simp) (hn σ)
      | addTable t => simp [Call.meaning, substitute]
    · refine Nat.le_trans (h3 (fun t h => hn t (by simp [h]))) ?_
      cases call with
      | usePreset σ => exact strLen_map_le presetFold_size text
      | useNeologdn σ => exact (neologdn_len text).2
      | addTable t => exact absurd (by simp) (hn t)

/-- The bounds are sharp, and the hypothesis on tables is needed: a table can grow the bytes, a
ligature also the number of characters. -/
example : strLen ((c! "ab").map presetFold) = strLen (c! "ab") ∧
    strLen (substitute (itemSubst [⟨c! "a", c! "あ"⟩]) (c! "a")) = 3 ∧
    (LigatureTranslator.mk [(c! "㈱", c! "株式会社")]).modify .insertion (c! "㈱") = c! "株式会社" := by
  decide +kernel

end Chanoma
