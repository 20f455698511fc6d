import Verif.Props.Kinds
import Verif.Props.Found
import Verif.Props.SwapNeologdn
import Verif.Props.Readings
import Verif.Props.Settled
import Verif.Props.Typing
import Verif.Spec.Idle
/-! # C109: which modifiers are superfluous beside another -/

namespace Chanoma

theorem conv_fix {l : List (Char × Char)} {u : Str} (h : ∀ c ∈ u, image l c = c) : u.map (image l) = u := by
  conv => rhs; rw [← List.map_id u]
  exact List.map_congr_left fun c hc => h c hc

theorem elim_fix {cs : List Char} {u : Str} (h : ∀ c ∈ u, c ∉ cs) : u.filter (fun c => decide (c ∉ cs)) = u :=
  List.filter_eq_self.2 fun c hc => by simpa using h c hc

theorem dGo_fix {u : Str} (h : SpacesOk u) : dGo false false u = u := by
  rw [← dotted_eq_dGo, dotted_fix h]

theorem spacesOk_none {u : Str} (h : ' ' ∉ u) : SpacesOk u := fun a b e => absurd (by simp [e]) h

theorem trim_fix {u : Str} (h : ' ' ∉ u) : trimModify u = u :=
  trim_words ⟨fun e => h (List.mem_of_mem_head? e), fun e => h (List.mem_of_getLast? e)⟩

theorem neologdn_fix {u : Str} (h : ∀ c ∈ u, Kept c ∧ c ≠ ' ' ∧ c ≠ 'ー') (hv : ∀ a ∈ u, ∀ m ∈ u, voiced a m = none) :
    neologdnSpec u = u := by
  have hn : Normal u := (normal_iff_settled u).2 ⟨fun c hc => (h c hc).1, spacesOk_none fun hc => (h _ hc).2.1 rfl,
    fun a x m b e => hv x (by simp [e]) m (by simp [e])⟩
  rw [(normal_spec hn).1, squeeze_not_mem fun hc => (h _ hc).2.2 rfl]

theorem spaces_fix {u : Str} (h : SpacesOk u) : squeeze ' ' u = u := by
  refine squeeze_fix fun a b e => ?_
  exact (by decide : ¬ IsAlnum (some ' ')) (h a (' ' :: b) e).2

theorem spacesOk_trim {u : Str} (h : SpacesOk u) : trimModify u = u := by
  refine trim_words ⟨fun e => ?_, fun e => ?_⟩
  · cases u with
    | nil => cases e
    | cons c u => cases e; exact (h [] u rfl).1.elim
  · obtain ⟨a, rfl⟩ := List.getLast?_eq_some_iff.1 e
    exact (h a [] rfl).2.elim

theorem spaces_out (t : Str) : SpacesOk (dGo false false t) := by
  rw [← dotted_eq_dGo]; exact dotted_spacesOk t

theorem idleAfter_all {s s' : Step} (h : IdleAfter s s') (t : Str) : s'.does (s.does t) = s.does t := by
  have hn := spec_normal t
  cases s with
  | ligature r => cases s' <;> exact h.elim
  | convert l =>
    have hm : ∀ c ∈ t.map (image l), ∃ d, c = image l d := fun c hc => by
      obtain ⟨d, -, rfl⟩ := List.mem_map.1 hc; exact ⟨d, rfl⟩
    cases s' with
    | ligature r => exact h.elim
    | convert l' => exact conv_fix fun c hc => by obtain ⟨d, rfl⟩ := hm c hc; exact h d
    | eliminate cs => exact elim_fix fun c hc => by obtain ⟨d, rfl⟩ := hm c hc; exact h d
    | reduce c' => exact squeeze_not_mem fun hc => by obtain ⟨d, e⟩ := hm c' hc; exact h d e.symm
    | spaces => exact dGo_fix (spacesOk_none fun hc => by obtain ⟨d, e⟩ := hm _ hc; exact h d e.symm)
    | trim => exact trim_fix fun hc => by obtain ⟨d, e⟩ := hm _ hc; exact h d e.symm
    | neologdn =>
      refine neologdn_fix (fun c hc => ?_) fun a ha m hm' => ?_
      · obtain ⟨d, rfl⟩ := hm c hc; exact h.1 d
      · obtain ⟨d, rfl⟩ := hm a ha
        obtain ⟨e, rfl⟩ := hm m hm'
        exact h.2 d e
  | eliminate cs =>
    have hm : ∀ c ∈ t.filter (fun c => decide (c ∉ cs)), c ∉ cs := fun c hc => by
      simpa using (List.mem_filter.1 hc).2
    cases s' with
    | ligature r => exact h.elim
    | convert l' => exact conv_fix fun c hc => h c (hm c hc)
    | eliminate cs' => exact elim_fix fun c hc hc' => hm c hc (h c hc')
    | reduce c' => exact squeeze_not_mem fun hc => hm _ hc h
    | spaces => exact dGo_fix (spacesOk_none fun hc => hm _ hc h)
    | trim => exact trim_fix fun hc => hm _ hc h
    | neologdn => exact neologdn_fix (fun c hc => h.1 c (hm c hc)) fun a ha m hm' => h.2 a m (hm a ha) (hm m hm')
  | reduce c =>
    cases s' with
    | convert l' => exact conv_fix fun c _ => h c
    | eliminate cs' => exact elim_fix fun c _ => by rw [show cs' = [] from h]; simp
    | reduce c' => rw [← show c = c' from h]; exact squeeze_idem c t
    | _ => exact h.elim
  | spaces =>
    cases s' with
    | convert l' => exact conv_fix fun c _ => h c
    | eliminate cs' => exact elim_fix fun c _ => by rw [show cs' = [] from h]; simp
    | reduce c' => rw [show c' = ' ' from h]; exact spaces_fix (spaces_out t)
    | spaces => exact dGo_fix (spaces_out t)
    | trim => exact spacesOk_trim (spaces_out t)
    | _ => exact h.elim
  | trim =>
    cases s' with
    | convert l' => exact conv_fix fun c _ => h c
    | eliminate cs' => exact elim_fix fun c _ => by rw [show cs' = [] from h]; simp
    | trim => exact trim_words (trim_part t).2
    | _ => exact h.elim
  | neologdn =>
    cases s' with
    | convert l' => exact conv_fix fun c hc => h c (hn.folded c hc)
    | eliminate cs' => exact elim_fix fun c hc hc' => h c hc' (hn.folded c hc)
    | reduce c' =>
      rcases h with h | h
      · rw [h]; exact spaces_fix hn.spaces
      · exact squeeze_not_mem fun hc => h (hn.folded _ hc)
    | spaces => exact dGo_fix hn.spaces
    | trim => exact spacesOk_trim hn.spaces
    | ligature r => exact h.elim
    | neologdn => exact h.elim

theorem squeeze_one (c a : Char) : squeeze c [a] = [a] := by simp [squeeze]

theorem squeeze_two (c : Char) : squeeze c [c, c] = [c] := squeeze_replicate c 1

theorem dGo_one {a : Char} (h : a ≠ ' ') : dGo false false [a] = [a] := by simp [dGo, h]

theorem dGo_two {a b : Char} (ha : a ≠ ' ') (hb : b ≠ ' ') : dGo false false [a, b] = [a, b] := by simp [dGo, ha, hb]

theorem trim_two {a b : Char} (ha : a ≠ ' ') (hb : b ≠ ' ') : trimModify [a, b] = [a, b] :=
  trim_words ⟨by simpa using ha, by simpa using hb⟩

theorem kept_vis {c : Char} (h : Kept c) (hs : c ≠ ' ') : Vis c := by
  unfold Vis; rw [h.1]; exact ⟨hs, h.2⟩

theorem kept_one {c : Char} (h : Kept c) (hs : c ≠ ' ') : neologdnSpec [c] = [c] := by
  rw [spec_one (kept_vis h hs), h.1]

theorem kept_two {c : Char} (h : Kept c) (hs : c ≠ ' ') (hk : c ≠ 'ー') : neologdnSpec [c, c] = [c, c] := by
  rw [spec_two (kept_vis h hs) (kept_vis h hs) (by rw [h.1]; simp [hk]), h.1, compose_keep (voiced_self c), compose_one]

/-- Texts of two characters that neologdn leaves alone show what it leaves alone. -/
theorem untouched_needed {P : Char → Prop}
    (h1 : ∀ c, P c → neologdnSpec [c] = [c]) (h2 : ∀ a b, P a → P b → neologdnSpec [a, b] = [a, b]) :
    (∀ c, P c → Kept c ∧ c ≠ ' ' ∧ c ≠ 'ー') ∧ ∀ a m, P a → P m → voiced a m = none := by
  have key : ∀ c, P c → Kept c ∧ c ≠ ' ' ∧ c ≠ 'ー' := by
    intro c hc
    have e := h1 c hc
    have hn := (spec_normal [c]).folded c (by rw [e]; simp)
    refine ⟨hn, ?_, ?_⟩
    · rintro rfl; exact absurd e (by decide +kernel)
    · rintro rfl; exact absurd (h2 _ _ hc hc) (by decide +kernel)
  refine ⟨key, fun a m ha hm => ?_⟩
  have := h2 a m ha hm
  have hs := (normal_iff_settled _).1 (spec_normal [a, m])
  rw [this] at hs
  exact hs.2.2 [] a m [] rfl

theorem idleAfter_short {s s' : Step} (hl : ∀ r, s ≠ .ligature r) (hl' : ∀ r, s' ≠ .ligature r)
    (h : ∀ t : Str, t.length ≤ 4 → s'.does (s.does t) = s.does t) : IdleAfter s s' := by
  have conv : ∀ {l : List (Char × Char)} {u : Str}, u.map (image l) = u → ∀ c ∈ u, image l c = c := by
    intro l u e c hc
    rw [← List.map_id u, List.map_map] at e
    exact (List.map_inj_left.1 e) c hc
  have elim : ∀ {cs : List Char} {u : Str}, u.filter (fun c => decide (c ∉ cs)) = u → ∀ c ∈ u, c ∉ cs := by
    intro cs u e c hc
    simpa using List.filter_eq_self.1 e c hc
  have one : ∀ c, s'.does (s.does [c]) = s.does [c] := fun c => h [c] (by simp)
  have two : ∀ a b, s'.does (s.does [a, b]) = s.does [a, b] := fun a b => h [a, b] (by simp)
  have h11 := h (c! "1 1") (by decide)
  have hk := h (c! "あ あ") (by decide)
  have hxx := h (c! "x  x") (by decide)
  have hwide := one 'Ａ'
  have hwide' := one 'Ｂ'
  have hlong := h (c! "ー～ー") (by decide)
  have hsp := one ' '
  have nsp : ∀ c, neologdnSpec [c] = [c] → Kept c := fun c e => (spec_normal [c]).folded c (by rw [e]; simp)
  cases s with
  | ligature r => exact absurd rfl (hl r)
  | convert l =>
    have one : ∀ c, s'.does [image l c] = [image l c] := one
    have two : ∀ a b, s'.does [image l a, image l b] = [image l a, image l b] := two
    cases s' with
    | ligature r => exact absurd rfl (hl' r)
    | convert l' => exact fun c => conv (one c) _ (by simp)
    | eliminate cs' => exact fun c => elim (one c) _ (by simp)
    | reduce c' =>
      intro c e
      have := two c c
      rw [e] at this
      exact absurd ((squeeze_two c').symm.trans this) (by simp)
    | spaces => intro c e; have := one c; rw [e] at this; exact absurd this (by decide)
    | trim => intro c e; have := one c; rw [e] at this; exact absurd this (by decide)
    | neologdn =>
      obtain ⟨h1, h2⟩ := untouched_needed (P := fun c => ∃ d, c = image l d) (by rintro c ⟨d, rfl⟩; exact one d)
        (by rintro a b ⟨d, rfl⟩ ⟨e, rfl⟩; exact two d e)
      exact ⟨fun c => h1 _ ⟨c, rfl⟩, fun a m => h2 _ _ ⟨a, rfl⟩ ⟨m, rfl⟩⟩
  | eliminate cs =>
    have kept : ∀ u : Str, (∀ c ∈ u, c ∉ cs) → Step.does (.eliminate cs) u = u := fun u hu => elim_fix hu
    have one : ∀ c, c ∉ cs → s'.does [c] = [c] := fun c hc => by
      have := one c; rwa [kept [c] (by simpa using hc)] at this
    have two : ∀ a b, a ∉ cs → b ∉ cs → s'.does [a, b] = [a, b] := fun a b ha hb => by
      have := two a b; rwa [kept [a, b] (by simp [ha, hb])] at this
    cases s' with
    | ligature r => exact absurd rfl (hl' r)
    | convert l' => exact fun c hc => conv (one c hc) c (by simp)
    | eliminate cs' =>
      intro c hc
      exact Classical.byContradiction fun hn => elim (one c hn) c (by simp) hc
    | reduce c' =>
      refine Classical.byContradiction fun hn => ?_
      exact absurd ((squeeze_two c').symm.trans (two c' c' hn hn)) (by simp)
    | spaces => exact Classical.byContradiction fun hn => absurd (one ' ' hn) (by decide)
    | trim => exact Classical.byContradiction fun hn => absurd (one ' ' hn) (by decide)
    | neologdn => exact untouched_needed (P := fun c => c ∉ cs) one two
  | reduce c =>
    have one : ∀ a, s'.does [a] = [a] := fun a => by
      have := one a; rwa [show Step.does (.reduce c) [a] = [a] from squeeze_one c a] at this
    cases s' with
    | ligature r => exact absurd rfl (hl' r)
    | convert l' => exact fun c => conv (one c) c (by simp)
    | eliminate cs' => exact List.eq_nil_iff_forall_not_mem.2 fun c hc => elim (one c) c (by simp) hc
    | reduce c' =>
      refine Classical.byContradiction fun (hn : ¬ c = c') => ?_
      have := two c' c'
      rw [show Step.does (.reduce c) [c', c'] = [c', c'] from squeeze_not_mem (by simpa using hn)] at this
      exact absurd ((squeeze_two c').symm.trans this) (by simp)
    | spaces => exact absurd (one ' ') (by decide)
    | trim => exact absurd (one ' ') (by decide)
    | neologdn => exact absurd (one 'Ａ') (by decide +kernel)
  | spaces =>
    have one : ∀ a, a ≠ ' ' → s'.does [a] = [a] := fun a ha => by
      have := one a; rwa [show Step.does .spaces [a] = [a] from dGo_one ha] at this
    have h11 : s'.does (c! "1 1") = c! "1 1" := h11
    cases s' with
    | ligature r => exact absurd rfl (hl' r)
    | convert l' =>
      intro c
      by_cases hc : c = ' '
      · subst hc; exact conv h11 ' ' (by decide)
      · exact conv (one c hc) c (by simp)
    | eliminate cs' =>
      refine List.eq_nil_iff_forall_not_mem.2 fun c hm => ?_
      by_cases hc : c = ' '
      · subst hc; exact elim h11 ' ' (by decide) hm
      · exact elim (one c hc) c (by simp) hm
    | reduce c' =>
      refine Classical.byContradiction fun hn => ?_
      have := two c' c'
      rw [show Step.does .spaces [c', c'] = [c', c'] from dGo_two hn hn] at this
      exact absurd ((squeeze_two c').symm.trans this) (by simp)
    | spaces => trivial
    | trim => trivial
    | neologdn => exact absurd (one 'Ａ' (by decide)) (by decide +kernel)
  | trim =>
    have one : ∀ a, a ≠ ' ' → s'.does [a] = [a] := fun a ha => by
      have := one a; rwa [show Step.does .trim [a] = [a] from trim_single ha] at this
    have h11 : s'.does (c! "1 1") = c! "1 1" := by
      rwa [show Step.does .trim (c! "1 1") = c! "1 1" by decide] at h11
    cases s' with
    | ligature r => exact absurd rfl (hl' r)
    | convert l' =>
      intro c
      by_cases hc : c = ' '
      · subst hc; exact conv h11 ' ' (by decide)
      · exact conv (one c hc) c (by simp)
    | eliminate cs' =>
      refine List.eq_nil_iff_forall_not_mem.2 fun c hm => ?_
      by_cases hc : c = ' '
      · subst hc; exact elim h11 ' ' (by decide) hm
      · exact elim (one c hc) c (by simp) hm
    | reduce c' =>
      by_cases hn : c' = ' '
      · subst hn; exact absurd hxx (by decide)
      · have := two c' c'
        rw [show Step.does .trim [c', c'] = [c', c'] from trim_two hn hn] at this
        exact absurd ((squeeze_two c').symm.trans this) (by simp)
    | spaces => exact absurd hk (by decide)
    | trim => trivial
    | neologdn => exact absurd (one 'Ａ' (by decide)) (by decide +kernel)
  | neologdn =>
    have one : ∀ a, Kept a → a ≠ ' ' → s'.does [a] = [a] := fun a ha ha' => by
      have := one a; rwa [show Step.does .neologdn [a] = [a] from kept_one ha ha'] at this
    have e11 : Step.does .neologdn (c! "1 1") = c! "1 1" := by decide +kernel
    have h11 : s'.does (c! "1 1") = c! "1 1" := (congrArg s'.does e11).symm.trans (h11.trans e11)
    have elong : Step.does .neologdn (c! "ー～ー") = c! "ーー" := by decide +kernel
    have hlong : s'.does (c! "ーー") = c! "ーー" := (congrArg s'.does elong).symm.trans (hlong.trans elong)
    cases s' with
    | ligature r => exact absurd rfl (hl' r)
    | convert l' =>
      intro c hk
      by_cases hc : c = ' '
      · subst hc; exact conv h11 ' ' (by decide)
      · exact conv (one c hk hc) c (by simp)
    | eliminate cs' =>
      intro c hm hk
      by_cases hc : c = ' '
      · subst hc; exact elim h11 ' ' (by decide) hm
      · exact elim (one c hk hc) c (by simp) hm
    | reduce c' =>
      refine Classical.byContradiction fun hn => ?_
      have h1 : c' ≠ ' ' := fun e => hn (.inl e)
      have h2 : Kept c' := Classical.byContradiction fun e => hn (.inr e)
      by_cases hc : c' = 'ー'
      · subst hc; exact absurd hlong (by decide)
      · have := two c' c'
        rw [show Step.does .neologdn [c', c'] = [c', c'] from kept_two h2 h1 hc] at this
        exact absurd ((squeeze_two c').symm.trans this) (by simp)
    | spaces => trivial
    | trim => trivial
    | neologdn => exact absurd hlong (by decide +kernel)

theorem spec_squeeze_any {c : Char} (h : neologdnFold c = ' ' ∨ neologdnFold c = 'ー' ∨ neologdnFold c ∈ tildeChars) (t : Str) :
    neologdnSpec (squeeze c t) = neologdnSpec t := by
  by_cases hc : c = 'ー'
  · subst hc
    rw [spec_eq, spec_eq]
    have key : squeeze 'ー' ((squeeze 'ー' t).map neologdnFold) = squeeze 'ー' (t.map neologdnFold) := by
      have e : neologdnFold 'ー' = 'ー' := by decide +kernel
      induction t with
      | nil => rfl
      | cons a t ih =>
        rw [squeeze]
        split
        · rename_i ha
          rw [ih, List.map_cons, ha.1, e, squeeze_pos]
          rw [List.head?_map, ha.2]
          exact congrArg some e
        · rw [List.map_cons, List.map_cons, squeeze, squeeze, ih, List.head?_map, List.head?_map, squeeze_head]
    rw [key]
  · have := spec_squeeze (c := c) (by
      rcases h with h | h | h
      · exact .inl h
      · exact .inr (.inr ⟨h, hc⟩)
      · exact .inr (.inl h)) [] t
    simpa using this

theorem idleBefore_all {s s' : Step} (h : IdleBefore s s') (t : Str) : s'.does (s.does t) = s'.does t := by
  have idl : ∀ {l : List (Char × Char)}, (∀ c, image l c = c) → Step.does (.convert l) t = t := fun h => conv_fix fun c _ => h c
  have ide : ∀ {cs : List Char}, cs = [] → Step.does (.eliminate cs) t = t := by
    rintro cs rfl; exact elim_fix fun c _ => by simp
  -- deleting what another modifier touches
  have rd : ∀ (cs : List Char) (s : Step), (∀ r, s ≠ .ligature r) → KeepsReading (fun c => if c ∈ cs then [] else [c]) s →
      Step.does (.eliminate cs) (s.does t) = Step.does (.eliminate cs) t := by
    intro cs s hl hk
    have := keeps_does hl hk t
    have e : ∀ u : Str, Step.does (.eliminate cs) u = reading (fun c => if c ∈ cs then [] else [c]) u := by
      intro u
      show u.filter _ = _
      rw [filter_eq_flatMap, reading]
      congr 1
      funext c
      by_cases hc : c ∈ cs <;> simp [hc]
    rw [e, e, this]
  cases s with
  | ligature r => cases s' <;> exact h.elim
  | convert l =>
    cases s' with
    | ligature r => exact h.elim
    | convert l' =>
      show (t.map (image l)).map (image l') = t.map (image l')
      rw [List.map_map]
      exact List.map_congr_left fun c _ => h c
    | eliminate cs' =>
      refine rd cs' (.convert l) (by simp) fun c => ?_
      rcases h c with e | ⟨e1, e2⟩
      · rw [e]
      · simp [e1, e2]
    | reduce c' => rw [idl h]
    | spaces => rw [idl h]
    | trim => rw [idl h]
    | neologdn =>
      show neologdnSpec (t.map (image l)) = neologdnSpec t
      rw [spec_oneTilde, spec_oneTilde, List.map_map]
      congr 4
      refine List.map_congr_left fun c _ => ?_
      rcases h c with e | ⟨e1, e2⟩
      · simp [e]
      · simp [oneTilde, e1, e2]
  | eliminate cs =>
    cases s' with
    | ligature r => exact h.elim
    | eliminate cs' => exact rd cs' (.eliminate cs) (by simp) fun c hc => by simp [h c hc]
    | convert l' => rw [ide h]
    | reduce c' => rw [ide h]
    | spaces => rw [ide h]
    | trim => rw [ide h]
    | neologdn => rw [ide h]
  | reduce c =>
    cases s' with
    | eliminate cs' => exact rd cs' (.reduce c) (by simp) (by simp [KeepsReading, show c ∈ cs' from h])
    | reduce c' => rw [show c = c' from h]; exact squeeze_idem c' t
    | spaces =>
      rw [show c = ' ' from h]
      have := (C12_subsumes .insertion t).2.2.2.1
      simp only [ModifierKind.modify, Outcome.ok_bind, reducer_eq, Outcome.ok.injEq, dotted_eq_dGo] at this
      exact this
    | neologdn => exact spec_squeeze_any h t
    | _ => exact h.elim
  | spaces =>
    cases s' with
    | eliminate cs' => exact rd cs' .spaces (by simp) (by simp [KeepsReading, show ' ' ∈ cs' from h])
    | spaces => exact dGo_fix (spaces_out t)
    | _ => exact h.elim
  | trim =>
    cases s' with
    | eliminate cs' => exact rd cs' .trim (by simp) (by simp [KeepsReading, show ' ' ∈ cs' from h])
    | spaces =>
      have := Outcome.ok.inj (C12_subsumes .insertion t).2.1
      rw [dotted_eq_dGo, dotted_eq_dGo] at this
      exact this
    | trim => exact trim_words (trim_part t).2
    | neologdn => exact spec_trim t
    | _ => exact h.elim
  | neologdn =>
    cases s' with
    | eliminate cs' =>
      obtain ⟨h1, h2, h3, h4, h5⟩ := h
      refine rd cs' .neologdn (by simp) ⟨fun c => ?_, by simp [h2], by simp [h3], fun c hc => by simp [h4 c hc],
        fun a m b hv => ?_⟩
      · rcases h1 c with e | ⟨e1, e2⟩
        · rw [e]
        · simp [e1, e2]
      · obtain ⟨e1, e2, e3⟩ := h5 a m b hv
        simp [e1, e2, e3]
    | _ => exact h.elim

theorem idleBefore_short {s s' : Step} (hl : ∀ r, s ≠ .ligature r) (hl' : ∀ r, s' ≠ .ligature r)
    (h : ∀ t : Str, t.length ≤ 4 → s'.does (s.does t) = s'.does t) : IdleBefore s s' := by
  have one : ∀ c, s'.does (s.does [c]) = s'.does [c] := fun c => h [c] (by simp)
  have two : ∀ a b, s'.does (s.does [a, b]) = s'.does [a, b] := fun a b => h [a, b] (by simp)
  have three : ∀ a b c, s'.does (s.does [a, b, c]) = s'.does [a, b, c] := fun a b c => h [a, b, c] (by simp)
  have hxx := h (c! "x  x") (by decide)
  -- before an eliminator
  have rd : ∀ cs : List Char, s' = .eliminate cs → KeepsReading (fun c => if c ∈ cs then [] else [c]) s := by
    rintro cs rfl
    refine does_keeps hl fun t ht => ?_
    have e : ∀ u : Str, Step.does (.eliminate cs) u = reading (fun c => if c ∈ cs then [] else [c]) u := by
      intro u
      show u.filter _ = _
      rw [filter_eq_flatMap, reading]
      congr 1
      funext c
      by_cases hc : c ∈ cs <;> simp [hc]
    rw [← e, ← e]
    exact h t (by omega)
  have rd1 : ∀ {cs : List Char} {a b : Char}, (if a ∈ cs then [] else [a]) = (if b ∈ cs then [] else [b]) → a = b ∨ a ∈ cs ∧ b ∈ cs := by
    intro cs a b e
    by_cases ha : a ∈ cs <;> by_cases hb : b ∈ cs <;> simp [ha, hb] at e ⊢
    exact e
  have rd2 : ∀ {cs : List Char} {a : Char}, (if a ∈ cs then [] else [a]) = ([] : Str) → a ∈ cs := by
    intro cs a e
    by_cases ha : a ∈ cs <;> simp [ha] at e ⊢
  cases s with
  | ligature r => exact absurd rfl (hl r)
  | convert l =>
    have one : ∀ c, s'.does [image l c] = s'.does [c] := one
    have three : ∀ a b c, s'.does [image l a, image l b, image l c] = s'.does [a, b, c] := three
    cases s' with
    | ligature r => exact absurd rfl (hl' r)
    | convert l' => exact fun c => by simpa [Step.does, Step.act] using one c
    | eliminate cs' => exact fun c => rd1 (rd cs' rfl c)
    | reduce c' =>
      intro c
      have := one c
      simpa [Step.does, Step.act, squeeze_one] using this
    | spaces =>
      intro c
      have := one c
      simp only [Step.does, Step.act] at this
      by_cases hc : c = ' '
      · subst hc
        refine Classical.byContradiction fun hn => ?_
        rw [dGo_one hn] at this
        exact absurd this (by simp [dGo])
      · rw [dGo_one hc] at this
        by_cases hn : image l c = ' '
        · rw [hn] at this; exact absurd this (by simp [dGo])
        · rw [dGo_one hn] at this; simpa using this
    | trim =>
      intro c
      have := one c
      simp only [Step.does, Step.act] at this
      have e : trimModify [' '] = [] := by decide
      by_cases hc : c = ' '
      · subst hc
        refine Classical.byContradiction fun hn => ?_
        rw [trim_single hn, e] at this
        exact absurd this (by simp)
      · rw [trim_single hc] at this
        by_cases hn : image l c = ' '
        · rw [hn, e] at this; exact absurd this (by simp)
        · rw [trim_single hn] at this; simpa using this
    | neologdn =>
      have one : ∀ c, neologdnSpec [image l c] = neologdnSpec [c] := one
      have three : ∀ a b c, neologdnSpec [image l a, image l b, image l c] = neologdnSpec [a, b, c] := three
      have vis : ∀ c, (Vis c → Vis (image l c) ∧ neologdnFold (image l c) = neologdnFold c) ∧ (¬ Vis c → ¬ Vis (image l c)) := by
        intro c
        have := one c
        constructor
        · intro hv
          rw [spec_one hv] at this
          by_cases hv' : Vis (image l c)
          · rw [spec_one hv'] at this; exact ⟨hv', by simpa using this⟩
          · rw [spec_one_gone hv'] at this; simp at this
        · intro hv hv'
          rw [spec_one hv', spec_one_gone hv] at this; simp at this
      have v1 : Vis '1' ∧ neologdnFold '1' = '1' := by unfold Vis; decide +kernel
      obtain ⟨v2, v3⟩ := (vis '1').1 v1.1
      rw [v1.2] at v3
      have al : isAsciiAlphanumeric (neologdnFold '1') = true ∧ isAsciiAlphanumeric (neologdnFold '1') = true := by decide +kernel
      have al' : isAsciiAlphanumeric (neologdnFold (image l '1')) = true ∧ isAsciiAlphanumeric (neologdnFold (image l '1')) = true := by
        rw [v3]; decide +kernel
      have gone : ∀ {c : Char}, ¬ Vis c → neologdnFold c = ' ' ∨ neologdnFold c ∈ tildeChars := by
        intro c hv
        by_cases h1 : neologdnFold c = ' '
        · exact .inl h1
        · exact .inr (Classical.byContradiction fun h2 => hv ⟨h1, h2⟩)
      intro c
      by_cases hv : Vis c
      · exact .inl ((vis c).1 hv).2
      · have h3 := three '1' c '1'
        have e : composeMarks ['1', '1'] = ['1', '1'] := by decide +kernel
        rcases gone hv with h1 | h1 <;> rcases gone ((vis c).2 hv) with h2 | h2
        · exact .inl (h2.trans h1.symm)
        · rw [spec_tilde v2 v2 h2, spec_space_alnum v1.1 v1.1 h1 al, v3, v1.2, e] at h3
          simp at h3
        · rw [spec_tilde v1.1 v1.1 h1, spec_space_alnum v2 v2 h2 al', v3, v1.2, e] at h3
          simp at h3
        · exact .inr ⟨h2, h1⟩
  | eliminate cs =>
    have gone : ∀ c ∈ cs, Step.does (.eliminate cs) [c] = [] := fun c hc => by simp [Step.does, Step.act, hc]
    have none : (∀ c, s'.does [c] = [] → c ∉ cs) → s'.does [] = [] → cs = [] := fun h1 h2 =>
      List.eq_nil_iff_forall_not_mem.2 fun c hc => h1 c (by
        have := one c; rw [gone c hc, h2] at this; exact this.symm) hc
    have keep : ∀ {c : Char}, c ∉ cs → ∀ u, Step.does (.eliminate cs) (c :: u) = c :: Step.does (.eliminate cs) u := by
      intro c hc u; simp [Step.does, Step.act, hc]
    have drop : ∀ {c : Char}, c ∈ cs → ∀ u, Step.does (.eliminate cs) (c :: u) = Step.does (.eliminate cs) u := by
      intro c hc u; simp [Step.does, Step.act, hc]
    have nil : Step.does (.eliminate cs) [] = [] := rfl
    cases s' with
    | ligature r => exact absurd rfl (hl' r)
    | eliminate cs' => exact fun c hc => rd2 (rd cs' rfl c hc)
    | convert l' => exact none (fun c e => by simp [Step.does, Step.act] at e) rfl
    | reduce c' => exact none (fun c e => by simp [Step.does, Step.act, squeeze_one] at e) rfl
    | spaces =>
      have h1 : '1' ∉ cs := fun hc => by have := one '1'; rw [gone _ hc] at this; exact absurd this (by decide)
      refine none (fun c e hc => ?_) rfl
      have : c = ' ' := Classical.byContradiction fun hn => by
        rw [show Step.does .spaces [c] = [c] from dGo_one hn] at e; simp at e
      subst this
      have := three '1' ' ' '1'
      rw [keep h1, drop hc, keep h1, nil] at this
      exact absurd this (by decide)
    | trim =>
      have h1 : '1' ∉ cs := fun hc => by have := one '1'; rw [gone _ hc] at this; exact absurd this (by decide)
      refine none (fun c e hc => ?_) (by decide)
      have : c = ' ' := Classical.byContradiction fun hn => by
        rw [show Step.does .trim [c] = [c] from trim_single hn] at e; simp at e
      subst this
      have := three '1' ' ' '1'
      rw [keep h1, drop hc, keep h1, nil] at this
      exact absurd this (by decide)
    | neologdn =>
      have h1 : '1' ∉ cs := fun hc => by have := one '1'; rw [gone _ hc] at this; exact absurd this (by decide +kernel)
      have h2 : 'ー' ∉ cs := fun hc => by have := one 'ー'; rw [gone _ hc] at this; exact absurd this (by decide +kernel)
      refine none (fun c e hc => ?_) (by decide +kernel)
      have hv : ¬ Vis c := fun hv => by
        rw [show Step.does .neologdn [c] = _ from spec_one hv] at e; simp at e
      have v1 : Vis '1' ∧ neologdnFold '1' = '1' := by unfold Vis; decide +kernel
      have v2 : Vis 'ー' ∧ neologdnFold 'ー' = 'ー' := by unfold Vis; decide +kernel
      by_cases hs : neologdnFold c = ' '
      · have := three '1' c '1'
        rw [keep h1, drop hc, keep h1, nil, show Step.does .neologdn ['1', c, '1'] = _ from
          spec_space_alnum v1.1 v1.1 hs (by decide +kernel), v1.2] at this
        exact absurd this (by decide +kernel)
      · have ht : neologdnFold c ∈ tildeChars := Classical.byContradiction fun hn => hv ⟨hs, hn⟩
        have := three 'ー' c 'ー'
        rw [keep h2, drop hc, keep h2, nil, show Step.does .neologdn ['ー', c, 'ー'] = _ from
          spec_tilde v2.1 v2.1 ht, v2.2] at this
        exact absurd this (by decide +kernel)
  | reduce c =>
    have two : s'.does [c] = s'.does [c, c] := by
      have := two c c; rwa [show Step.does (.reduce c) [c, c] = [c] from squeeze_two c] at this
    cases s' with
    | ligature r => exact absurd rfl (hl' r)
    | convert l' => simp [Step.does, Step.act] at two
    | eliminate cs' => exact rd2 (rd cs' rfl)
    | reduce c' =>
      refine Classical.byContradiction fun hn => ?_
      have e : squeeze c' [c, c] = [c, c] := squeeze_not_mem (by simpa using fun e => hn e.symm)
      simp only [Step.does, Step.act, squeeze_one, e] at two
      simp at two
    | spaces =>
      refine Classical.byContradiction fun hn => ?_
      simp only [Step.does, Step.act, dGo_one hn, dGo_two hn hn] at two
      simp at two
    | trim =>
      by_cases hn : c = ' '
      · subst hn; exact absurd hxx (by decide)
      · simp only [Step.does, Step.act, trim_single hn, trim_two hn hn] at two
        simp at two
    | neologdn =>
      refine Classical.byContradiction fun hn => ?_
      simp only [IdleBefore, not_or] at hn
      obtain ⟨h1, h2, h3⟩ := hn
      have two : neologdnSpec [c] = neologdnSpec [c, c] := two
      rw [spec_one ⟨h1, h3⟩, spec_two ⟨h1, h3⟩ ⟨h1, h3⟩ (fun e => h2 e.1), compose_keep (voiced_self _), compose_one] at two
      simp at two
  | spaces =>
    have hsp := one ' '
    cases s' with
    | ligature r => exact absurd rfl (hl' r)
    | convert l' => simp [Step.does, Step.act, dGo] at hsp
    | eliminate cs' => exact rd2 (rd cs' rfl)
    | reduce c' => simp [Step.does, Step.act, dGo, squeeze] at hsp
    | spaces => trivial
    | trim => exact absurd (three 'あ' ' ' 'あ') (by decide)
    | neologdn => exact absurd (three 'Ａ' ' ' 'Ａ') (by decide +kernel)
  | trim =>
    have hsp := one ' '
    have e : trimModify [' '] = [] := by decide
    cases s' with
    | ligature r => exact absurd rfl (hl' r)
    | convert l' => simp [Step.does, Step.act, e] at hsp
    | eliminate cs' => exact rd2 (rd cs' rfl)
    | reduce c' => simp [Step.does, Step.act, e, squeeze] at hsp
    | spaces => trivial
    | trim => trivial
    | neologdn => trivial
  | neologdn =>
    have hsp := one ' '
    have e : neologdnSpec [' '] = [] := by decide +kernel
    cases s' with
    | ligature r => exact absurd rfl (hl' r)
    | convert l' => simp [Step.does, Step.act, e] at hsp
    | eliminate cs' =>
      obtain ⟨k1, k2, k3, k4, k5⟩ := rd cs' rfl
      refine ⟨fun c => rd1 (k1 c), rd2 k2, rd2 k3, fun c hc => rd2 (k4 c hc), fun a m b hv => ?_⟩
      have := k5 a m b hv
      have hf := voiced_facts hv
      by_cases ha : a ∈ cs' <;> by_cases hm : m ∈ cs' <;> by_cases hb : b ∈ cs' <;> simp [ha, hm, hb] at this ⊢
      · rcases voiced_mark hv with e | e
        · exact hf.2.2.2.2.2.2.2.2.2.2.2.1 (this.trans e)
        · exact hf.2.2.2.2.2.2.2.2.2.2.2.2.1 (this.trans e)
      · rw [← this] at hv
        exact voiced_ne hv
    | reduce c' => simp [Step.does, Step.act, e, squeeze] at hsp
    | spaces => exact absurd (one 'Ａ') (by decide +kernel)
    | trim => exact absurd (one 'Ａ') (by decide +kernel)
    | neologdn => exact absurd (three 'ー' '～' 'ー') (by decide +kernel)

/-- C109: beside another modifier, neither of them a ligature translator, the second is superfluous exactly if it is so
for texts of at most four characters, and exactly under the stated condition; and so is the first. -/
theorem C109_superfluous (σ : Oracle) (k v k' v' : YValue) (s s' : Step) (hd : Describes k v s) (hd' : Describes k' v' s')
    (hl : ∀ r, s ≠ .ligature r) (hl' : ∀ r, s' ≠ .ligature r) :
    ∃ m m', ModifierKind.fromYaml σ k v = .ok m ∧ ModifierKind.fromYaml σ k' v' = .ok m' ∧
      (∀ σs τs, (∀ t, (Chanoma.mk [m, m']).normalize σs false t = (Chanoma.mk [m]).normalize τs false t) ↔
        ∀ t : Str, t.length ≤ 4 → (Chanoma.mk [m, m']).normalize σs false t = (Chanoma.mk [m]).normalize τs false t) ∧
      (∀ σs τs, (∀ t, (Chanoma.mk [m, m']).normalize σs false t = (Chanoma.mk [m]).normalize τs false t) ↔
        IdleAfter s s') ∧
      (∀ σs τs, (∀ t, (Chanoma.mk [m, m']).normalize σs false t = (Chanoma.mk [m']).normalize τs false t) ↔
        ∀ t : Str, t.length ≤ 4 → (Chanoma.mk [m, m']).normalize σs false t = (Chanoma.mk [m']).normalize τs false t) ∧
      ∀ σs τs, (∀ t, (Chanoma.mk [m, m']).normalize σs false t = (Chanoma.mk [m']).normalize τs false t) ↔
        IdleBefore s s' := by
  obtain ⟨m, h1, h2⟩ := describes_ok hd σ
  obtain ⟨m', h1', h2'⟩ := describes_ok hd' σ
  have hf : ∀ τ t, m.modify τ t = .ok (s.does t) := step_function hl h2.2
  have hf' : ∀ τ t, m'.modify τ t = .ok (s'.does t) := step_function hl' h2'.2
  have n2 : ∀ σs t, (Chanoma.mk [m, m']).normalize σs false t = .ok (s'.does (s.does t)) := by
    intro σs t; simp [Chanoma.normalize, hf, hf']
  have n1 : ∀ σs t, (Chanoma.mk [m]).normalize σs false t = .ok (s.does t) := by
    intro σs t; simp [Chanoma.normalize, hf]
  have n1' : ∀ σs t, (Chanoma.mk [m']).normalize σs false t = .ok (s'.does t) := by
    intro σs t; simp [Chanoma.normalize, hf']
  refine ⟨m, m', h1, h1', ?_, ?_, ?_, ?_⟩
  all_goals
    intro σs τs
    simp only [n2, n1, n1', Outcome.ok.injEq]
  · exact ⟨fun h t _ => h t, fun h => idleAfter_all (idleAfter_short hl hl' h)⟩
  · exact ⟨fun h => idleAfter_short hl hl' fun t _ => h t, idleAfter_all⟩
  · exact ⟨fun h t _ => h t, fun h => idleBefore_all (idleBefore_short hl hl' h)⟩
  · exact ⟨fun h => idleBefore_short hl hl' fun t _ => h t, idleBefore_all⟩

theorem run_shift (ms : List ModifierKind) {σs τs : Nat → Oracle} {i j : Nat} (h : ∀ n, σs (i + n) = τs (j + n)) (t : Str) :
    (ms.zipIdx i).foldlM (fun acc m => m.1.modify (σs m.2) acc) t =
      (ms.zipIdx j).foldlM (fun acc m => m.1.modify (τs m.2) acc) t := by
  induction ms generalizing i j t with
  | nil => rfl
  | cons m ms ih =>
    rw [List.zipIdx_cons, List.zipIdx_cons, List.foldlM_cons, List.foldlM_cons, show σs i = τs j from h 0]
    refine congrArg _ (funext fun u => ih (fun n => ?_) u)
    have := h (n + 1)
    rwa [show i + 1 + n = i + (n + 1) by omega, show j + 1 + n = j + (n + 1) by omega]

theorem run_shift_take (ms : List ModifierKind) {σs τs : Nat → Oracle} {i : Nat} (h : ∀ n, n < i + ms.length → σs n = τs n) (t : Str) :
    (ms.zipIdx i).foldlM (fun acc m => m.1.modify (σs m.2) acc) t =
      (ms.zipIdx i).foldlM (fun acc m => m.1.modify (τs m.2) acc) t := by
  induction ms generalizing i t with
  | nil => rfl
  | cons m ms ih =>
    rw [List.zipIdx_cons, List.foldlM_cons, List.foldlM_cons, h i (by simp)]
    exact congrArg _ (funext fun u => ih (fun n hn => h n (by simp; omega)) u)

/-- C109: a superfluous modifier may be left out of any pipeline: the texts come out as they did, the other modifiers
meeting the same hash orders as before. -/
theorem C109_left_out (σ : Oracle) (k v k' v' : YValue) (s s' : Step) (hd : Describes k v s) (hd' : Describes k' v' s')
    (before after : List ModifierKind) :
    ∃ m m', ModifierKind.fromYaml σ k v = .ok m ∧ ModifierKind.fromYaml σ k' v' = .ok m' ∧
      (IdleAfter s s' → ∀ σs t, (Chanoma.mk (before ++ m :: m' :: after)).normalize σs false t =
        (Chanoma.mk (before ++ m :: after)).normalize
          (fun n => if n ≤ before.length then σs n else σs (n + 1)) false t) ∧
      (IdleBefore s s' → ∀ σs t, (Chanoma.mk (before ++ m :: m' :: after)).normalize σs false t =
        (Chanoma.mk (before ++ m' :: after)).normalize
          (fun n => if n ≤ before.length then σs n else σs (n + 1)) false t) := by
  obtain ⟨m, h1, h2⟩ := describes_ok hd σ
  obtain ⟨m', h1', h2'⟩ := describes_ok hd' σ
  have run : ∀ (ms : List ModifierKind) σs t, (Chanoma.mk ms).normalize σs false t =
      (ms.zipIdx 0).foldlM (fun acc m => m.1.modify (σs m.2) acc) t := fun _ _ _ => rfl
  refine ⟨m, m', h1, h1', fun h σs t => ?_, fun h σs t => ?_⟩
  · have hf : ∀ τ t, m.modify τ t = .ok (s.does t) := step_function (by rintro r rfl; cases s' <;> exact h) h2.2
    have hf' : ∀ τ t, m'.modify τ t = .ok (s'.does t) := step_function (by rintro r rfl; cases s <;> exact h) h2'.2
    simp only [run, List.zipIdx_append, List.foldlM_append, List.zipIdx_cons, List.foldlM_cons, hf, hf', Outcome.ok_bind]
    rw [run_shift_take before (τs := fun n => if n ≤ before.length then σs n else σs (n + 1)) fun n hn => by
      rw [if_pos (by omega)]]
    refine congrArg _ (funext fun u => ?_)
    rw [idleAfter_all h]
    exact run_shift after (τs := fun n => if n ≤ before.length then σs n else σs (n + 1))
      (fun n => by show _ = ite _ _ _; rw [if_neg (by omega)]; congr 1; omega) _
  · have hf : ∀ τ t, m.modify τ t = .ok (s.does t) := step_function (by rintro r rfl; cases s' <;> exact h) h2.2
    have hf' : ∀ τ t, m'.modify τ t = .ok (s'.does t) := step_function (by rintro r rfl; cases s <;> exact h) h2'.2
    simp only [run, List.zipIdx_append, List.foldlM_append, List.zipIdx_cons, List.foldlM_cons, hf, hf', Outcome.ok_bind]
    rw [run_shift_take before (τs := fun n => if n ≤ before.length then σs n else σs (n + 1)) fun n hn => by
      rw [if_pos (by omega)]]
    refine congrArg _ (funext fun u => ?_)
    rw [idleBefore_all h]
    exact run_shift after (τs := fun n => if n ≤ before.length then σs n else σs (n + 1))
      (fun n => by show _ = ite _ _ _; rw [if_neg (by omega)]; congr 1; omega) _

/-- C109: texts of three characters do not suffice: on those, a reducer of the space seems superfluous after trim. -/
theorem C109_not_three : (∀ t : Str, t.length ≤ 3 → squeeze ' ' (trimModify t) = trimModify t) ∧
    squeeze ' ' (trimModify (c! "x  x")) ≠ trimModify (c! "x  x") := by
  refine ⟨fun t ht => squeeze_fix fun a b e => ?_, by decide⟩
  obtain ⟨h1, h2, h3⟩ := trim_part t
  have hlen := h1.length_le
  rw [e] at hlen h2 h3
  have : a = [] ∨ b = [] := by
    cases a with
    | nil => exact .inl rfl
    | cons x a => cases b with
      | nil => exact .inr rfl
      | cons y b => simp at hlen; omega
  rcases this with rfl | rfl
  · exact h2 rfl
  · exact h3 (by simp)

/- Modifiers that are superfluous and modifiers that are not. -/
example : IdleAfter .neologdn (.eliminate ['～']) ∧ IdleAfter .neologdn (.reduce ' ') ∧ ¬ IdleAfter .neologdn (.reduce 'ー') ∧
    IdleAfter .spaces .trim ∧ ¬ IdleAfter .trim .spaces ∧ IdleBefore .trim .spaces ∧ IdleBefore (.reduce 'ー') .neologdn ∧
    ¬ IdleBefore .spaces .neologdn := by
  unfold IdleAfter IdleBefore Kept
  decide +kernel
/- The folding of one of the letters is superfluous before neologdn and after it. -/
example : IdleBefore (.convert [('Ａ', 'A')]) .neologdn ∧ IdleAfter .neologdn (.convert [('Ａ', 'A')]) := by
  have e : ∀ c, c ≠ 'Ａ' → image [('Ａ', 'A')] c = c := fun c hc => by simp [image, lastPair, Ne.symm hc]
  constructor
  · intro c
    by_cases hc : c = 'Ａ'
    · subst hc; exact .inl (by decide +kernel)
    · rw [e c hc]; exact .inl rfl
  · intro c hk
    by_cases hc : c = 'Ａ'
    · subst hc; exact absurd hk.1 (by decide +kernel)
    · exact e c hc
example : Describes (.string (c! "trim")) .null .trim ∧ Describes (.string (c! "dotted_space_eliminator")) .null .spaces ∧
    (∀ r, Step.trim ≠ .ligature r) := ⟨.trim, .spaces, by simp⟩

end Chanoma
