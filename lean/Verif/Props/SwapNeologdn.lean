import Verif.Proofs.SwapNeologdn
/-! # C71: which modifiers may be exchanged with neologdn -/

namespace Chanoma

theorem spec_trim (t : Str) : neologdnSpec (trimModify t) = neologdnSpec t := by
  obtain ⟨a, b, h, -, -⟩ := trim_eq t
  generalize trimModify t = o at *
  subst h
  have hf : ∀ k, (List.replicate k ' ').map neologdnFold = List.replicate k ' ' := by
    intro k; rw [List.map_replicate, show neologdnFold ' ' = ' ' by decide +kernel]
  have hl : ∀ k, (List.replicate k ' ').getLast? ≠ some 'ー' := by
    intro k h
    have := List.mem_of_getLast? h
    rw [List.mem_replicate] at this
    exact absurd this.2 (by decide)
  have hh : ∀ k, (List.replicate k ' ').head? ≠ some 'ー' := by
    intro k h
    have := List.mem_of_mem_head? h
    rw [List.mem_replicate] at this
    exact absurd this.2 (by decide)
  have hn : ∀ k, 'ー' ∉ List.replicate k ' ' := by
    intro k h
    rw [List.mem_replicate] at h
    exact absurd h.2 (by decide)
  have hsp : ∀ p sp k, dGo p sp (List.replicate k ' ') = [] := by
    intro p sp k
    induction k generalizing sp with
    | zero => rfl
    | succ k ih => rw [List.replicate_succ, dGo, if_pos rfl, ih]
  have hlead : ∀ sp k u, dGo false sp (List.replicate k ' ' ++ u) = dGo false false u := by
    intro sp k u
    induction k generalizing sp with
    | zero => rw [List.replicate_zero, List.nil_append, dGo_start]; simp
    | succ k ih => rw [List.replicate_succ, List.cons_append, dGo, if_pos rfl, ih]
  rw [spec_eq, spec_eq, List.map_append, List.map_append, hf, hf, squeeze_append _ _ _ (fun h => hh _ h.2),
    squeeze_append _ _ _ (fun h => hl _ h.1), squeeze_not_mem (hn a), squeeze_not_mem (hn b), List.append_assoc, hlead,
    dGo_append, hsp, List.append_nil]

theorem trim_spec (t : Str) : trimModify (neologdnSpec t) = neologdnSpec t := by
  have hn := (spec_normal t).spaces
  generalize neologdnSpec t = o at *
  obtain ⟨a, b, h, h1, h2⟩ := trim_eq o
  refine trim_unique (a := a) (b := b) (a' := 0) (b' := 0) (h.symm.trans (by simp)) h1 h2 ?_ ?_
  · intro e
    cases o with
    | nil => cases e
    | cons c o => cases e; exact (hn [] o rfl).1.elim
  · intro e
    obtain ⟨u, rfl⟩ := List.getLast?_eq_some_iff.1 e
    exact (hn u [] rfl).2.elim

/-- What a modifier other than a ligature translator makes of a text. -/
def Step.effect (s : Step) (t : Str) : Str :=
  match s with
  | .neologdn => neologdnSpec t
  | s => s.act t

theorem realizes_effect {m : ModifierKind} {s : Step} (h : Realizes m s) (hs : ∀ l, s ≠ .ligature l) (τ : Oracle)
    (t : Str) : m.modify τ t = .ok (s.effect t) := by
  cases s with
  | neologdn =>
    obtain ⟨o, h1, h2⟩ := h.2 τ t
    rw [h1]; exact congrArg _ h2
  | ligature l => exact absurd rfl (hs l)
  | _ => exact realizes_act h trivial τ t

theorem neologdn_swap_iff {s : Step} (hs : ∀ l, s ≠ .ligature l) :
    (∀ t, neologdnSpec (s.effect t) = s.effect (neologdnSpec t)) ↔ MaySwapNeologdn s := by
  cases s with
  | convert l => exact ⟨respects_needed, respects_swap⟩
  | eliminate cs =>
    refine ⟨deletes_needed, ?_⟩
    rintro (rfl | h) t
    · simp [Step.effect, Step.act, List.filter_eq_self.2]
    · exact deletes_swap h t
  | reduce c =>
    refine ⟨reduce_needed, fun h t => ?_⟩
    have := spec_squeeze h [] t
    rw [List.nil_append, List.nil_append] at this
    show neologdnSpec (squeeze c t) = squeeze c (neologdnSpec t)
    rw [squeeze_spec h, this]
  | ligature l => exact absurd rfl (hs l)
  | spaces =>
    refine iff_of_false (fun h => ?_) id
    have := h (c! "Ａ Ｂ")
    exact absurd this (by unfold Step.effect Step.act; decide +kernel)
  | trim =>
    refine iff_of_true (fun t => ?_) trivial
    show neologdnSpec (trimModify t) = trimModify (neologdnSpec t)
    rw [spec_trim, trim_spec]
  | neologdn => exact iff_of_true (fun t => rfl) trivial

/-- C71: a modifier other than a ligature translator may be exchanged with neologdn exactly under the
stated condition. -/
theorem C71_neologdn_iff (σ : Oracle) (k v : YValue) (s : Step) (hs : ∀ l, s ≠ .ligature l) (hd : Describes k v s)
    (k' v' : YValue) (hd' : Describes k' v' .neologdn) :
    ∃ m m', ModifierKind.fromYaml σ k v = .ok m ∧ ModifierKind.fromYaml σ k' v' = .ok m' ∧
      ∀ σs τs debug debug', (∀ t, (Chanoma.mk [m, m']).normalize σs debug t =
        (Chanoma.mk [m', m]).normalize τs debug' t) ↔ MaySwapNeologdn s := by
  obtain ⟨m, h1, h2⟩ := describes_ok hd σ
  obtain ⟨m', h1', h2'⟩ := describes_ok hd' σ
  refine ⟨m, m', h1, h1', fun σs τs debug debug' => ?_⟩
  have e : ∀ (x y : ModifierKind) (a b : Step), Realizes x a → Realizes y b → (∀ l, a ≠ .ligature l) →
      (∀ l, b ≠ .ligature l) → ∀ σs debug t, (Chanoma.mk [x, y]).normalize σs debug t = .ok (b.effect (a.effect t)) := by
    intro x y a b hx hy ha hb σs debug t
    rw [normalize_wf (by simp [hx.1, hy.1]) (by simp)]
    simp [Chanoma.normalize, realizes_effect hx ha, realizes_effect hy hb]
  have hn : ∀ l, Step.neologdn ≠ .ligature l := fun l h => by cases h
  simp only [e m m' s _ h2 h2' hs hn, e m' m _ s h2' h2 hn hs, Outcome.ok.injEq]
  exact neologdn_swap_iff hs

/-- C71: exchanging a neighbour of neologdn with it in a YAML file changes the result for no text if
`MaySwapNeologdn` holds. -/
theorem C71_neologdn_in_file (σ : Oracle) (w w' : World) (path : OsStr)
    (hext : HasExt path (p! "yaml") ∨ HasExt path (p! "yml")) (b b' : List UInt8) (data data' : YValue)
    (hfile : w.entry path = some (.file b)) (hyaml : w.parseYaml b = some data)
    (hfile' : w'.entry path = some (.file b')) (hyaml' : w'.parseYaml b' = some data')
    (items : List Item) (hi : DocItems data items) (hi' : DocItems data' items) (hc : CellsNonEmpty items)
    (pre post : List Step) (s : Step) (hs : DocSteps data (pre ++ s :: .neologdn :: post))
    (hs' : DocSteps data' (pre ++ .neologdn :: s :: post)) (hsw : MaySwapNeologdn s) :
    ∃ c c', Chanoma.fromConfigFile σ w path = .ok c ∧ Chanoma.fromConfigFile σ w' path = .ok c' ∧
      ∀ σs debug text, c.normalize σs debug text = c'.normalize σs debug text := by
  have hl : ∀ l, s ≠ .ligature l := by rintro l rfl; exact hsw
  refine swap_in_file σ w w' path hext b b' data data' hfile hyaml hfile' hyaml' items hi hi' hc pre post s _ hs hs'
    fun m m' rm rm' σ σ' τ τ' t => ?_
  simp only [realizes_effect rm hl, realizes_effect rm' (fun l h => by cases h), Outcome.ok_bind]
  exact congrArg _ ((neologdn_swap_iff hl).2 hsw t)

/-- Conditions that hold and conditions that fail: the ideographic space and a fullwidth tilde may be
reduced before or after neologdn, and a line that neologdn folds to the prolonged sound mark too, but
not the prolonged sound mark itself; a mark that has a fullwidth form may not be deleted or converted
alone. -/
example : MaySwapNeologdn (.reduce '　') ∧ MaySwapNeologdn (.reduce '～') ∧ MaySwapNeologdn (.reduce '─') ∧
    ¬ MaySwapNeologdn (.reduce 'ー') ∧ ¬ MaySwapNeologdn (.eliminate ['!']) ∧ ¬ MaySwapNeologdn (.convert [('!', '?')]) := by
  have h : neologdnFold '！' = '!' := by decide +kernel
  refine ⟨by unfold MaySwapNeologdn; decide +kernel, by unfold MaySwapNeologdn; decide +kernel,
    by unfold MaySwapNeologdn; decide +kernel, by unfold MaySwapNeologdn; decide +kernel, ?_, ?_⟩
  · rintro (h' | h')
    · cases h'
    · exact absurd h'.2.1 (by decide)
  · intro h'
    have := h'.2.1 '！' (by decide +kernel)
    exact absurd this (by decide +kernel)

/-- A converter that may be exchanged with neologdn: both widths of the exclamation mark become a
question mark of the same width. -/
example : MaySwapNeologdn (.convert [('!', '?'), ('！', '？')]) := by
  have him : ∀ c, image [('!', '?'), ('！', '？')] c = if c = '！' then '？' else if c = '!' then '?' else c := by
    intro c
    by_cases h1 : c = '！'
    · subst h1; decide
    · by_cases h2 : c = '!'
      · subst h2; decide
      · simp [image, lastPair, Ne.symm h1, Ne.symm h2, h1, h2]
  have hcov : ∀ c, neologdnFold c ≠ c → ∃ i ∈ neologdnConsts, c ∈ i.from.head? := by
    intro c hc
    obtain ⟨i, hi, hf⟩ := neologdn_covered c hc
    exact ⟨i, hi, by rw [hf]; rfl⟩
  have e1 : ∀ c, c ≠ '！' → c ≠ '!' → image [('!', '?'), ('！', '？')] c = c := by
    intro c h1 h2; rw [him, if_neg h1, if_neg h2]
  have e2 : ∀ c, c ≠ '！' → c ≠ '!' → neologdnFold c ≠ '！' ∧ neologdnFold c ≠ '!' := by
    intro c h1 h2
    by_cases hc : neologdnFold c = c
    · rw [hc]; exact ⟨h1, h2⟩
    · obtain ⟨i, hi, hf⟩ := hcov c hc
      have := (by decide +kernel : ∀ i ∈ neologdnConsts, ∀ c ∈ i.from.head?, c = '！' ∨ c = '!' ∨
        neologdnFold c ≠ '！' ∧ neologdnFold c ≠ '!') i hi c hf
      exact (this.resolve_left h1).resolve_left h2
  have e3 : ∀ a m v, voiced a m = some v → a ≠ '!' ∧ a ≠ '?' ∧ m ≠ '!' ∧ m ≠ '?' ∧ v ≠ '！' ∧ v ≠ '!' ∧
      a ≠ '！' ∧ m ≠ '！' ∧ a ≠ '？' ∧ m ≠ '？' := by
    intro a m v hv
    exact (by decide +kernel : ∀ r ∈ neologdnLigatures, ∀ a ∈ r.1.head?, ∀ m ∈ r.1.getLast?, ∀ v ∈ r.2.head?,
      a ≠ '!' ∧ a ≠ '?' ∧ m ≠ '!' ∧ m ≠ '?' ∧ v ≠ '！' ∧ v ≠ '!' ∧ a ≠ '！' ∧ m ≠ '！' ∧ a ≠ '？' ∧ m ≠ '？')
      _ (voiced_cases hv) a rfl m rfl v rfl
  have split : ∀ (P : Char → Prop), P '！' → P '!' → (∀ c, c ≠ '！' → c ≠ '!' → P c) → ∀ c, P c := by
    intro P h1 h2 h3 c
    by_cases h : c = '！'
    · exact h ▸ h1
    · by_cases h' : c = '!'
      · exact h' ▸ h2
      · exact h3 c h h'
  refine ⟨split _ (by decide +kernel) (by decide +kernel) fun c h1 h2 => by rw [e1 c h1 h2],
    split _ (fun _ => by decide +kernel) (fun _ => by decide +kernel) fun c h1 h2 _ => ?_,
    split _ (fun _ => by decide +kernel) (fun _ => by decide +kernel) fun c h1 h2 _ => by simp [e1 c h1 h2],
    fun a m _ _ => ?_⟩
  · rw [e1 c h1 h2, e1 _ (e2 c h1 h2).1 (e2 c h1 h2).2]
  · cases hv : voiced a m with
    | some v =>
      obtain ⟨h1, -, h2, -, h3, h4, h5, h6, -⟩ := e3 a m v hv
      rw [e1 a h5 h1, e1 m h6 h2, hv, Option.map_some, e1 v h3 h4]
    | none =>
      cases hw : voiced (image [('!', '?'), ('！', '？')] a) (image [('!', '?'), ('！', '？')] m) with
      | none => rfl
      | some w =>
        exfalso
        obtain ⟨-, h1, -, h2, -, -, -, -, h3, h4⟩ := e3 _ _ w hw
        have back : ∀ c, image [('!', '?'), ('！', '？')] c ≠ '?' → image [('!', '?'), ('！', '？')] c ≠ '？' →
            image [('!', '?'), ('！', '？')] c = c :=
          split _ (fun _ h => absurd (by decide) h) (fun h => absurd (by decide) h) fun c h1 h2 _ _ => e1 c h1 h2
        rw [back a h1 h3, back m h2 h4, hv] at hw
        cases hw

/-- What an eliminator deletes that may be exchanged with neologdn: spaces, the prolonged sound mark,
all kana that take part in compositions, and everything that is folded to one of these. -/
example : ∃ cs, cs ≠ [] ∧ 'a' ∉ cs ∧ '~' ∉ cs ∧ MaySwapNeologdn (.eliminate cs) := by
  let base : List Char := ' ' :: 'ー' :: neologdnLigatures.flatMap fun r => r.1 ++ r.2
  let cs : List Char := base ++ neologdnConsts.filterMap fun i => i.from.head?.filter fun c => neologdnFold c ∈ base
  have hcov : ∀ c, neologdnFold c ≠ c → ∃ i ∈ neologdnConsts, c ∈ i.from.head? := by
    intro c hc
    obtain ⟨i, hi, hf⟩ := neologdn_covered c hc
    exact ⟨i, hi, by rw [hf]; rfl⟩
  refine ⟨cs, by decide +kernel, by decide +kernel, by decide +kernel, .inr ⟨fun c _ _ => ?_, by decide +kernel,
    by decide +kernel, fun a m v hv => ?_, .inr fun c hc => ?_⟩⟩
  · by_cases h : neologdnFold c = c
    · rw [h]
    · obtain ⟨i, hi, hf⟩ := hcov c h
      exact (by decide +kernel : ∀ i ∈ neologdnConsts, ∀ c ∈ i.from.head?, (neologdnFold c ∈ cs ↔ c ∈ cs)) i hi c hf
  · exact (by decide +kernel : ∀ r ∈ neologdnLigatures, ∀ a ∈ r.1.head?, ∀ m ∈ r.1.getLast?, ∀ v ∈ r.2.head?,
      a ∈ cs ∧ m ∈ cs ∧ v ∈ cs) _ (voiced_cases hv) a rfl m rfl v rfl
  · by_cases h : neologdnFold c = c
    · rw [← h, hc]; decide +kernel
    · obtain ⟨i, hi, hf⟩ := hcov c h
      exact (by decide +kernel : ∀ i ∈ neologdnConsts, ∀ c ∈ i.from.head?, neologdnFold c = ' ' → c ∈ cs) i hi c hf hc

end Chanoma
