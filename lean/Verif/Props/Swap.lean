import Verif.Proofs.Swap
import Verif.Props.Notation
import Verif.Props.Config
/-! # C71: which two modifiers may be exchanged -/

namespace Chanoma

theorem maySwap_symm {s s' : Step} (h : MaySwap s s') : MaySwap s' s := by
  cases s <;> cases s' <;> first | exact h | exact fun c => (h c).symm

theorem trim_single {c : Char} (h : c ≠ ' ') : trimModify [c] = [c] := by
  simp [trimModify, trimMatches, trimEndMatches, trimStartMatches, h]

theorem act_swap {s s' : Step} (h : MaySwap s s') (t : Str) : s'.act (s.act t) = s.act (s'.act t) := by
  have alnum : ∀ {a b : Char}, (IsAlnum (some a) ↔ IsAlnum (some b)) →
      isAsciiAlphanumeric a = isAsciiAlphanumeric b := by
    intro a b h
    rw [Bool.eq_iff_iff, isAlnum_iff, isAlnum_iff]; exact h
  have spTrim : ∀ t, dGo false false (trimModify t) = trimModify (dGo false false t) := by
    intro t
    have := C12_subsumes .insertion t
    simp only [ModifierKind.modify, Outcome.ok_bind, Outcome.ok.injEq, dotted_eq_dGo] at this
    rw [this.2.1, this.2.2.1]
  have spReduce : ∀ c, (c = ' ' ∨ IsAlnum (some c)) → ∀ t,
      dGo false false (squeeze c t) = squeeze c (dGo false false t) := by
    rintro c (rfl | hc) t
    · have := C12_subsumes .insertion t
      simp only [ModifierKind.modify, Outcome.ok_bind, Outcome.ok.injEq, dotted_eq_dGo, reducer_eq] at this
      rw [this.2.2.2.1, this.2.2.2.2]
    · exact (squeeze_dGo_comm ((isAlnum_iff c).2 hc) t false false).symm
  cases s <;> cases s' <;> first | exact h.elim | skip
  case convert.convert =>
    simp only [Step.act, List.map_map]
    exact List.map_congr_left fun c _ => (h c).symm
  case convert.eliminate => exact map_filter_comm h t
  case convert.reduce => exact map_squeeze_comm h t
  case convert.spaces => exact map_dGo_comm (fun c => (h c).1) (fun c => alnum (h c).2) t _ _
  case convert.trim => exact map_trim_comm h t
  case eliminate.convert => exact (map_filter_comm h t).symm
  case eliminate.eliminate => simp only [Step.act, List.filter_filter, Bool.and_comm]
  case eliminate.reduce =>
    rcases h with rfl | h
    · simp [Step.act, List.filter_eq_self.2]
    · simp only [Step.act]; rw [squeeze_filter h, filter_squeeze h]
  case eliminate.spaces =>
    rcases h with rfl | h
    · simp [Step.act, List.filter_eq_self.2]
    · simp only [Step.act]; rw [dGo_filter h, filter_dGo h]
  case eliminate.trim =>
    rcases h with rfl | h
    · simp [Step.act, List.filter_eq_self.2]
    · simp only [Step.act]; rw [trim_filter h, filter_trim h]
  case reduce.convert => exact (map_squeeze_comm h t).symm
  case reduce.eliminate =>
    rcases h with rfl | h
    · simp [Step.act, List.filter_eq_self.2]
    · simp only [Step.act]; rw [squeeze_filter h, filter_squeeze h]
  case reduce.reduce => exact squeeze_comm _ _ t
  case reduce.spaces => exact spReduce _ h t
  case reduce.trim => exact squeeze_trim_comm _ t
  case spaces.convert => exact (map_dGo_comm (fun c => (h c).1) (fun c => alnum (h c).2) t _ _).symm
  case spaces.eliminate =>
    rcases h with rfl | h
    · simp [Step.act, List.filter_eq_self.2]
    · simp only [Step.act]; rw [dGo_filter h, filter_dGo h]
  case spaces.reduce => exact (spReduce _ h t).symm
  case spaces.spaces => rfl
  case spaces.trim => exact (spTrim t).symm
  case trim.convert => exact (map_trim_comm h t).symm
  case trim.eliminate =>
    rcases h with rfl | h
    · simp [Step.act, List.filter_eq_self.2]
    · simp only [Step.act]; rw [trim_filter h, filter_trim h]
  case trim.reduce => exact (squeeze_trim_comm _ t).symm
  case trim.spaces => exact spTrim t
  case trim.trim => rfl

/-- If the condition fails, some text shows it. -/
theorem swap_needed {s s' : Step} (hs : s.Simple) (hs' : s'.Simple)
    (h : ∀ t, s'.act (s.act t) = s.act (s'.act t)) : MaySwap s s' := by
  have convElim : ∀ l cs, (∀ t, (Step.eliminate cs).act ((Step.convert l).act t) =
      (Step.convert l).act ((Step.eliminate cs).act t)) → ∀ c, image l c ∈ cs ↔ c ∈ cs := by
    intro l cs h c
    have := h [c]
    by_cases h1 : image l c ∈ cs <;> by_cases h2 : c ∈ cs <;> simp [Step.act, h1, h2] at this ⊢
  have convReduce : ∀ l d, (∀ t, (Step.reduce d).act ((Step.convert l).act t) =
      (Step.convert l).act ((Step.reduce d).act t)) → ∀ c, image l c = d ↔ c = d := by
    intro l d h c
    have := h [c, c]
    by_cases h1 : image l c = d <;> by_cases h2 : c = d <;> simp [Step.act, squeeze, h1, h2] at this ⊢
    · exact this
    · rw [h2] at h1; simp [h1] at this
  have convTrim : ∀ l, (∀ t, Step.trim.act ((Step.convert l).act t) =
      (Step.convert l).act (Step.trim.act t)) → ∀ c, image l c = ' ' ↔ c = ' ' := by
    intro l h c
    have := h [c]
    have e : trimModify [' '] = [] := by decide
    by_cases h1 : image l c = ' ' <;> by_cases h2 : c = ' '
    · exact ⟨fun _ => h2, fun _ => h1⟩
    · simp [Step.act, h1, e, trim_single h2] at this
    · simp [Step.act, h2, e] at this
      rw [← h2] at this
      simp [trim_single h1] at this
    · simp [h1, h2]
  have convSpaces : ∀ l, (∀ t, Step.spaces.act ((Step.convert l).act t) =
      (Step.convert l).act (Step.spaces.act t)) →
      ∀ c, (image l c = ' ' ↔ c = ' ') ∧ (IsAlnum (some (image l c)) ↔ IsAlnum (some c)) := by
    intro l h
    have hsp : ∀ c, image l c = ' ' ↔ c = ' ' := by
      intro c
      have := h [c]
      by_cases h1 : image l c = ' ' <;> by_cases h2 : c = ' '
      · exact ⟨fun _ => h2, fun _ => h1⟩
      · simp [Step.act, dGo, h1, h2] at this
      · subst h2
        simp [Step.act, dGo, h1] at this
      · simp [h1, h2]
    intro c
    refine ⟨hsp c, ?_⟩
    have := h [c, ' ', c]
    have hs : image l ' ' = ' ' := (hsp ' ').2 rfl
    by_cases h2 : c = ' '
    · rw [h2, hs]
    · have h1 : image l c ≠ ' ' := fun e => h2 ((hsp c).1 e)
      rw [← isAlnum_iff, ← isAlnum_iff]
      cases e1 : isAsciiAlphanumeric (image l c) <;> cases e2 : isAsciiAlphanumeric c <;>
        simp [Step.act, dGo, h1, h2, hs, e1, e2] at this ⊢
  have elimReduce : ∀ cs d, (∀ t, (Step.reduce d).act ((Step.eliminate cs).act t) =
      (Step.eliminate cs).act ((Step.reduce d).act t)) → cs = [] ∨ d ∈ cs := by
    intro cs d h
    by_cases hd : d ∈ cs
    · exact .inr hd
    · cases cs with
      | nil => exact .inl rfl
      | cons e cs =>
        have hne : e ≠ d := fun he => hd (by simp [he])
        have := h [d, e, d]
        simp only [Step.act] at this
        rw [squeeze_neg (by simp [hne]), squeeze_neg (by simp [hne]), squeeze_neg (by simp)] at this
        have f1 : ([d, e, d] : Str).filter (fun c => decide (c ∉ e :: cs)) = [d, d] := by
          have hd' : decide (d ∉ e :: cs) = true := by simpa using hd
          have he' : decide (e ∉ e :: cs) = false := by simp
          simp only [List.filter_cons, hd', he', List.filter_nil]
          rfl
        have f2 : squeeze d [] = [] := rfl
        rw [f2, f1] at this
        simp [squeeze] at this
  have elimTrim : ∀ cs, (∀ t, Step.trim.act ((Step.eliminate cs).act t) =
      (Step.eliminate cs).act (Step.trim.act t)) → cs = [] ∨ ' ' ∈ cs := by
    intro cs h
    by_cases hd : ' ' ∈ cs
    · exact .inr hd
    · cases cs with
      | nil => exact .inl rfl
      | cons e cs =>
        have hne : e ≠ ' ' := fun he => hd (by simp [he])
        have := h [e, ' ', e]
        have hd' : decide (' ' ∉ e :: cs) = true := by simpa using hd
        have he' : decide (e ∉ e :: cs) = false := by simp
        have f1 : ([e, ' ', e] : Str).filter (fun c => decide (c ∉ e :: cs)) = [' '] := by
          simp only [List.filter_cons, hd', he', List.filter_nil]
          rfl
        have f2 : trimModify [e, ' ', e] = [e, ' ', e] := by
          simp [trimModify, trimMatches, trimEndMatches, trimStartMatches, hne]
        simp only [Step.act, f2, f1] at this
        exact absurd this (by decide)
  have elimSpaces : ∀ cs, (∀ t, Step.spaces.act ((Step.eliminate cs).act t) =
      (Step.eliminate cs).act (Step.spaces.act t)) → cs = [] ∨ ' ' ∈ cs := by
    intro cs h
    by_cases hd : ' ' ∈ cs
    · exact .inr hd
    · refine .inl ?_
      have hd' : decide (' ' ∉ cs) = true := by simpa using hd
      by_cases hal : ∃ e ∈ cs, isAsciiAlphanumeric e = true
      · obtain ⟨e, he, hea⟩ := hal
        have hne : e ≠ ' ' := fun h => hd (h ▸ he)
        have he' : decide (e ∉ cs) = false := by simpa using he
        have := h [e, ' ', e]
        have f1 : ([e, ' ', e] : Str).filter (fun c => decide (c ∉ cs)) = [' '] := by
          simp only [List.filter_cons, hd', he', List.filter_nil]
          rfl
        have f2 : dGo false false [e, ' ', e] = [e, ' ', e] := by simp [dGo, hne, hea]
        simp only [Step.act, f2, f1] at this
        exact absurd this (by decide)
      · cases hcs : cs with
        | nil => rfl
        | cons e cs' =>
          exfalso
          have he : e ∈ cs := by simp [hcs]
          have hne : e ≠ ' ' := fun h => hd (h ▸ he)
          have hea : isAsciiAlphanumeric e = false := by
            cases hx : isAsciiAlphanumeric e with
            | false => rfl
            | true => exact (hal ⟨e, he, hx⟩).elim
          have ha : 'a' ∉ cs := fun hx => hal ⟨'a', hx, by decide⟩
          have he' : decide (e ∉ cs) = false := by simpa using he
          have ha' : decide ('a' ∉ cs) = true := by simpa using ha
          have := h ['a', e, ' ', 'a']
          have f1 : (['a', e, ' ', 'a'] : Str).filter (fun c => decide (c ∉ cs)) = ['a', ' ', 'a'] := by
            simp only [List.filter_cons, hd', he', ha', List.filter_nil]
            rfl
          have f2 : dGo false false ['a', e, ' ', 'a'] = ['a', e, 'a'] := by
            simp [dGo, hne, hea]
          have f3 : (['a', e, 'a'] : Str).filter (fun c => decide (c ∉ cs)) = ['a', 'a'] := by
            simp only [List.filter_cons, he', ha', List.filter_nil]
            rfl
          simp only [Step.act, f2, f1, f3] at this
          exact absurd this (by decide)
  have reduceSpaces : ∀ c, (∀ t, Step.spaces.act ((Step.reduce c).act t) =
      (Step.reduce c).act (Step.spaces.act t)) → c = ' ' ∨ IsAlnum (some c) := by
    intro c h
    by_cases hc : c = ' '
    · exact .inl hc
    · refine .inr ?_
      rw [← isAlnum_iff]
      cases hx : isAsciiAlphanumeric c with
      | true => rfl
      | false =>
        have := h [c, ' ', c]
        have f1 : squeeze c [c, ' ', c] = [c, ' ', c] := by simp [squeeze, Ne.symm hc]
        have f2 : dGo false false [c, ' ', c] = [c, c] := by simp [dGo, hc, hx]
        have f3 : squeeze c [c, c] = [c] := by simp [squeeze]
        simp only [Step.act, f1, f2, f3] at this
        simp at this
  cases s <;> cases s' <;> first | exact hs.elim | exact hs'.elim | skip
  case convert.convert l l' =>
    intro c
    have := h [c]
    simpa [Step.act] using this.symm
  case convert.eliminate => exact convElim _ _ h
  case convert.reduce => exact convReduce _ _ h
  case convert.spaces => exact convSpaces _ h
  case convert.trim => exact convTrim _ h
  case eliminate.convert => exact convElim _ _ fun t => (h t).symm
  case eliminate.eliminate => trivial
  case eliminate.reduce => exact elimReduce _ _ h
  case eliminate.spaces => exact elimSpaces _ h
  case eliminate.trim => exact elimTrim _ h
  case reduce.convert => exact convReduce _ _ fun t => (h t).symm
  case reduce.eliminate => exact elimReduce _ _ fun t => (h t).symm
  case reduce.reduce => trivial
  case reduce.spaces => exact reduceSpaces _ h
  case reduce.trim => trivial
  case spaces.convert => exact convSpaces _ fun t => (h t).symm
  case spaces.eliminate => exact elimSpaces _ fun t => (h t).symm
  case spaces.reduce => exact reduceSpaces _ fun t => (h t).symm
  case spaces.spaces => trivial
  case spaces.trim => trivial
  case trim.convert => exact convTrim _ fun t => (h t).symm
  case trim.eliminate => exact elimTrim _ fun t => (h t).symm
  case trim.reduce => trivial
  case trim.spaces => trivial
  case trim.trim => trivial

theorem realizes_act {m : ModifierKind} {s : Step} (h : Realizes m s) (hs : s.Simple) (τ : Oracle) (t : Str) :
    m.modify τ t = .ok (s.act t) := by
  obtain ⟨o, h1, h2⟩ := h.2 τ t
  rw [h1, act_makes hs h2]

theorem normalize_wf {c : Chanoma} (h : ∀ m ∈ c.modifiers, m.WF) (hne : c.modifiers ≠ []) (σs : Nat → Oracle)
    (debug : Bool) (t : Str) : c.normalize σs debug t = c.normalize σs false t := by
  cases debug with
  | false => rfl
  | true =>
    obtain ⟨rs, h1, h2, h3⟩ := pipeline_eq c h σs t
    have hrs : rs ≠ [] := by
      intro e
      have := chained_length h1
      rw [e] at this
      exact hne (List.eq_nil_of_length_eq_zero this.symm)
    rw [h3, ← records_text rs t hrs]
    simp [Chanoma.normalize, h2]

theorem mapM_build (σ : Oracle) (ss : List Step) : ∃ ms, ss.mapM (Step.build σ) = .ok ms ∧
    ∀ m ∈ ms, m.WF := by
  induction ss with
  | nil => exact ⟨[], rfl, by simp⟩
  | cons s ss ih =>
    obtain ⟨ms, h1, h2⟩ := ih
    obtain ⟨m, h3, h4⟩ := build_ok σ s
    refine ⟨m :: ms, by rw [List.mapM_cons, h1, h3]; rfl, ?_⟩
    intro x hx
    rcases List.mem_cons.mp hx with rfl | hx
    · exact h4.1
    · exact h2 x hx

/-- The modifiers of a file, in order. -/
theorem docSteps_build {data : YValue} {ss : List Step} (h : DocSteps data ss) (σ : Oracle) :
    yamlModifiers σ data = ss.mapM (Step.build σ) := by
  have all : ∀ {l : List (YValue × YValue)} {ss : List Step}, DescribesAll l ss → ∀ acc : List ModifierKind,
      l.foldlM (fun ms e => do return ms ++ [← ModifierKind.fromYaml σ e.1 e.2]) acc =
        (do return acc ++ (← ss.mapM (Step.build σ)) : Outcome (List ModifierKind)) := by
    intro l ss h
    induction h with
    | nil => intro acc; simp
    | @cons k v s l ss h _ ih =>
      intro acc
      obtain ⟨m, hm, -⟩ := build_ok σ s
      rw [List.foldlM_cons, describes_build h, hm, List.mapM_cons, hm]
      obtain ⟨ms, hms, -⟩ := mapM_build σ ss
      refine (ih (acc ++ [m])).trans ?_
      rw [hms]
      simp
  rcases h with ⟨h, rfl⟩ | ⟨l, h, hi⟩
  · rw [← get_none] at h
    unfold yamlModifiers; rw [h]; rfl
  · rw [← get_some] at h
    unfold yamlModifiers; rw [h]
    refine (all hi []).trans ?_
    obtain ⟨r, hr⟩ : ∃ r, ss.mapM (Step.build σ) = r := ⟨_, rfl⟩
    rw [hr]
    cases r <;> rfl

theorem foldlM_swap {m m' : ModifierKind} (h : ∀ σ σ' τ τ' t, (m.modify σ t >>= m'.modify σ') =
      (m'.modify τ t >>= m.modify τ'))
    (pre post : List ModifierKind) (σs : Nat → Oracle) (t : Str) :
    (Chanoma.mk (pre ++ m :: m' :: post)).normalize σs false t =
      (Chanoma.mk (pre ++ m' :: m :: post)).normalize σs false t := by
  simp only [Chanoma.normalize, Bool.not_false, if_true, List.zipIdx_append, List.zipIdx_cons, List.foldlM_append,
    List.foldlM_cons]
  congr 1
  funext u
  rw [← bind_assoc, ← bind_assoc]
  congr 1
  exact h _ _ _ _ u

/-- C71: two simple modifiers may be exchanged exactly under the stated condition: their pipelines
agree on all texts, whatever the hash seeds and the log levels, iff `MaySwap` holds. -/
theorem C71_swap_iff (σ : Oracle) (k v k' v' : YValue) (s s' : Step) (hs : s.Simple) (hs' : s'.Simple)
    (hd : Describes k v s) (hd' : Describes k' v' s') :
    ∃ m m', ModifierKind.fromYaml σ k v = .ok m ∧ ModifierKind.fromYaml σ k' v' = .ok m' ∧
      ∀ σs τs debug debug', (∀ t, (Chanoma.mk [m, m']).normalize σs debug t =
        (Chanoma.mk [m', m]).normalize τs debug' t) ↔ MaySwap s s' := by
  obtain ⟨m, h1, h2⟩ := describes_ok hd σ
  obtain ⟨m', h1', h2'⟩ := describes_ok hd' σ
  refine ⟨m, m', h1, h1', fun σs τs debug debug' => ?_⟩
  have e : ∀ (x y : ModifierKind) (a b : Step), Realizes x a → Realizes y b → a.Simple → b.Simple →
      ∀ σs debug t, (Chanoma.mk [x, y]).normalize σs debug t = .ok (b.act (a.act t)) := by
    intro x y a b hx hy ha hb σs debug t
    rw [normalize_wf (by simp [hx.1, hy.1]) (by simp)]
    simp [Chanoma.normalize, realizes_act hx ha, realizes_act hy hb]
  simp only [e m m' s s' h2 h2' hs hs', e m' m s' s h2' h2 hs' hs, Outcome.ok.injEq]
  exact ⟨swap_needed hs hs', act_swap⟩

/-- Exchanging two neighbouring modifiers of a YAML file that may be exchanged. -/
theorem swap_in_file (σ : Oracle) (w w' : World) (path : OsStr)
    (hext : HasExt path (p! "yaml") ∨ HasExt path (p! "yml")) (b b' : List UInt8) (data data' : YValue)
    (hfile : w.entry path = some (.file b)) (hyaml : w.parseYaml b = some data)
    (hfile' : w'.entry path = some (.file b')) (hyaml' : w'.parseYaml b' = some data')
    (items : List Item) (hi : DocItems data items) (hi' : DocItems data' items) (hc : CellsNonEmpty items)
    (pre post : List Step) (s s' : Step) (hs : DocSteps data (pre ++ s :: s' :: post))
    (hs' : DocSteps data' (pre ++ s' :: s :: post)) 
    (hsw : ∀ m m', Realizes m s → Realizes m' s' → ∀ σ σ' τ τ' t, (m.modify σ t >>= m'.modify σ') =
      (m'.modify τ t >>= m.modify τ')) :
    ∃ c c', Chanoma.fromConfigFile σ w path = .ok c ∧ Chanoma.fromConfigFile σ w' path = .ok c' ∧
      ∀ σs debug text, c.normalize σs debug text = c'.normalize σs debug text := by
  obtain ⟨x, h3, -⟩ := fromTables_one_ok (Table.fromCorr items (.configurationFile path)) hc
  obtain ⟨A, hA, wA⟩ := mapM_build σ pre
  obtain ⟨B, hB, wB⟩ := mapM_build σ post
  obtain ⟨m, hm, rm⟩ := build_ok σ s
  obtain ⟨m', hm', rm'⟩ := build_ok σ s'
  have load : ∀ (w : World) (b : List UInt8) (data : YValue) (s s' : Step) (m m' : ModifierKind),
      w.entry path = some (.file b) → w.parseYaml b = some data → DocItems data items →
      DocSteps data (pre ++ s :: s' :: post) → s.build σ = .ok m → s'.build σ = .ok m' →
      Chanoma.fromConfigFile σ w path = .ok ⟨A ++ m :: m' :: (B ++ [.characterConverter x])⟩ := by
    intro w b data s s' m m' hf hy hi hs hm hm'
    rw [fromConfigFile_eq, loadYaml_eq ⟨b, hf, hy⟩ (fromPath_yaml hext), docItems_ok hi, Outcome.ok_bind, h3,
      docSteps_build hs, List.mapM_append, List.mapM_cons, List.mapM_cons, hA, hB, hm, hm']
    simp
  refine ⟨_, _, load w b data s s' m m' hfile hyaml hi hs hm hm',
    load w' b' data' s' s m' m hfile' hyaml' hi' hs' hm' hm, fun σs debug text => ?_⟩
  have wx : (ModifierKind.characterConverter x).WF := trivial
  have wf : ∀ y ∈ A ++ m :: m' :: (B ++ [.characterConverter x]), y.WF := by
    intro y hy
    simp only [List.mem_append, List.mem_cons, List.not_mem_nil, or_false] at hy
    rcases hy with h | rfl | rfl | h | rfl
    · exact wA y h
    · exact rm.1
    · exact rm'.1
    · exact wB y h
    · exact wx
  have wf' : ∀ y ∈ A ++ m' :: m :: (B ++ [.characterConverter x]), y.WF := by
    intro y hy
    apply wf y
    simp only [List.mem_append, List.mem_cons] at hy ⊢
    rcases hy with h | h | h | h
    · exact .inl h
    · exact .inr (.inr (.inl h))
    · exact .inr (.inl h)
    · exact .inr (.inr (.inr h))
  rw [normalize_wf wf (by simp), normalize_wf wf' (by simp)]
  exact foldlM_swap (hsw m m' rm rm') A _ σs text

/-- C71: exchanging two neighbouring modifiers of a YAML file for which `MaySwap` holds changes the
result for no text. -/
theorem C71_in_file (σ : Oracle) (w w' : World) (path : OsStr)
    (hext : HasExt path (p! "yaml") ∨ HasExt path (p! "yml")) (b b' : List UInt8) (data data' : YValue)
    (hfile : w.entry path = some (.file b)) (hyaml : w.parseYaml b = some data)
    (hfile' : w'.entry path = some (.file b')) (hyaml' : w'.parseYaml b' = some data')
    (items : List Item) (hi : DocItems data items) (hi' : DocItems data' items) (hc : CellsNonEmpty items)
    (pre post : List Step) (s s' : Step) (hs : DocSteps data (pre ++ s :: s' :: post))
    (hs' : DocSteps data' (pre ++ s' :: s :: post)) (hsw : MaySwap s s') :
    ∃ c c', Chanoma.fromConfigFile σ w path = .ok c ∧ Chanoma.fromConfigFile σ w' path = .ok c' ∧
      ∀ σs debug text, c.normalize σs debug text = c'.normalize σs debug text := by
  have hss : s.Simple ∧ s'.Simple := by
    cases s <;> cases s' <;> first | exact hsw.elim | exact ⟨trivial, trivial⟩
  refine swap_in_file σ w w' path hext b b' data data' hfile hyaml hfile' hyaml' items hi hi' hc pre post s s' hs hs'
    fun m m' rm rm' σ σ' τ τ' t => ?_
  simp only [realizes_act rm hss.1, realizes_act rm' hss.2, Outcome.ok_bind, act_swap hsw]

/-- C71: a simple modifier given twice in a row does the same as given once, except for converters
whose substitution is not idempotent. -/
theorem C71_twice (σ : Oracle) (k v : YValue) (s : Step) (hs : s.Simple) (hd : Describes k v s) :
    ∃ m, ModifierKind.fromYaml σ k v = .ok m ∧
      ∀ σs τs debug debug', (∀ t, (Chanoma.mk [m, m]).normalize σs debug t =
        (Chanoma.mk [m]).normalize τs debug' t) ↔ MayRepeat s := by
  obtain ⟨m, h1, h2⟩ := describes_ok hd σ
  refine ⟨m, h1, fun σs τs debug debug' => ?_⟩
  have e : ∀ t, ((Chanoma.mk [m, m]).normalize σs debug t = (Chanoma.mk [m]).normalize τs debug' t) ↔
      s.act (s.act t) = s.act t := by
    intro t
    rw [normalize_wf (by simp [h2.1]) (by simp), normalize_wf (c := ⟨[m]⟩) (by simp [h2.1]) (by simp)]
    simp [Chanoma.normalize, realizes_act h2 hs]
  simp only [e]
  cases s with
  | convert l =>
    constructor
    · intro h c
      have := h [c]
      simpa [Step.act] using this
    · intro h t
      simp only [Step.act, List.map_map]
      exact List.map_congr_left fun c _ => h c
  | eliminate cs => simp [MayRepeat, Step.act, List.filter_filter]
  | reduce c => simp [MayRepeat, Step.act, squeeze_idem]
  | ligature => exact hs.elim
  | spaces =>
    simp only [MayRepeat, Step.act, iff_true, ← dotted_eq_dGo]
    exact fun t => dotted_fix (dotted_spacesOk t)
  | trim =>
    simp only [MayRepeat, Step.act, iff_true]
    intro t
    obtain ⟨a, b, -, h1, h2⟩ := trim_eq t
    obtain ⟨a', b', h3', h1', h2'⟩ := trim_eq (trimModify t)
    have e : trimModify t = List.replicate 0 ' ' ++ trimModify t ++ List.replicate 0 ' ' := by simp
    exact trim_unique (h3'.symm.trans e) h1' h2' h1 h2
  | neologdn => exact hs.elim

/-- A chain of letters: not repeatable. -/
example : ¬ MayRepeat (.convert [('a', 'b'), ('b', 'c')]) :=
  fun h => absurd (h 'a') (by decide)

/-- Conditions that hold and conditions that fail. -/
example : MaySwap (.reduce 'ー') .trim ∧ ¬ MaySwap (.reduce 'ー') .spaces ∧
    MaySwap (.convert [('ａ', 'a')]) (.reduce 'ー') ∧ ¬ MaySwap (.convert [('～', 'ー')]) (.reduce 'ー') ∧
    MaySwap (.eliminate ['~', 'ー']) (.reduce 'ー') ∧ ¬ MaySwap (.eliminate ['~']) (.reduce 'ー') := by
  refine ⟨trivial, by simp [MaySwap, IsAlnum], ?_, fun h => absurd ((h '～').1 (by decide)) (by decide), by simp [MaySwap], by simp [MaySwap]⟩
  intro c
  by_cases hc : c = 'ａ'
  · subst hc; decide
  · have : image [('ａ', 'a')] c = c := by
      simp [image, lastPair, Ne.symm hc]
    rw [this]

/-- The entries of the first pair, in a file. -/
example : Describes (.string (c! "consecutive_character_reducer")) (.string ['ー']) (.reduce 'ー') ∧
    Describes (.string (c! "trim")) .null .trim ∧
    DocSteps (.mapping [(.string (c! "modifiers"), .mapping [(.string (c! "neologdn"), .null),
      (.string (c! "consecutive_character_reducer"), .string ['ー']), (.string (c! "trim"), .null)])])
      ([.neologdn] ++ .reduce 'ー' :: .trim :: []) :=
  ⟨.reduce _ [], .trim, .inr ⟨_, ⟨[], [], rfl, by simp⟩, .cons .neologdn (.cons (.reduce _ []) (.cons .trim .nil))⟩⟩

end Chanoma
