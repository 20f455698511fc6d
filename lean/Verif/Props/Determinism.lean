import Verif.Props.Ligature
import Verif.Props.Pipeline
import Verif.Props.Tables
import Verif.Props.PositionOrder
import Verif.Model.Cli
import Verif.Model.Macros
/-! # C66: where the hash order can show -/

namespace Chanoma

/-! ## Building -/

theorem corrAddAssign_oracle (σ τ : Oracle) : corrAddAssign σ = corrAddAssign τ :=
  funext fun a => funext fun b => C05_add_hash_order σ τ a b

theorem corrAdd_oracle (σ τ : Oracle) : corrAdd σ = corrAdd τ :=
  funext fun a => funext fun b => C05_add_hash_order σ τ a b

theorem sumChain_oracle (σ τ : Oracle) : sumChain σ = sumChain τ := by
  funext l
  cases l with
  | nil => rfl
  | cons => simp only [sumChain, corrAdd_oracle σ τ]

theorem preset_oracle (σ τ : Oracle) : TableBuilder.preset σ = TableBuilder.preset τ := by
  funext b
  simp only [TableBuilder.preset, Table.add, allItems_oracle σ τ, corrAddAssign_oracle σ τ]

theorem neologdnNew_oracle (σ τ : Oracle) : Neologdn.new σ = Neologdn.new τ := by
  simp only [Neologdn.new, neologdnTable, allItems_oracle σ τ, corrAdd_oracle σ τ]

theorem allCharactersSet_oracle (σ τ : Oracle) :
    Chanoma.allCharactersSet σ = Chanoma.allCharactersSet τ := by
  simp only [Chanoma.allCharactersSet, preset_oracle σ τ]

theorem fromYaml_oracle (σ τ : Oracle) : ModifierKind.fromYaml σ = ModifierKind.fromYaml τ := by
  funext k v
  simp only [ModifierKind.fromYaml, Neologdn.fromYaml, neologdnNew_oracle σ τ]

theorem loadFile_oracle (σ τ : Oracle) :
    Configuration.loadFileWithExt σ = Configuration.loadFileWithExt τ := by
  funext w p
  simp only [Configuration.loadFileWithExt, Configuration.loadModifiers, modifiersFromYamlPath, yamlModifiers,
    fromYaml_oracle σ τ]

theorem load_oracle (σ τ : Oracle) : Configuration.load σ = Configuration.load τ := by
  funext w
  simp only [Configuration.load, loadFile_oracle σ τ]

/-- C66: nothing that is built, loaded or exported depends on the hash order: the predefined
normalisers, the tables of a builder, the modifiers read from strings, what is read from
configuration files, the predefined sets, and the exported table. -/
theorem C66_building (σ τ : Oracle) :
    Chanoma.preset σ = Chanoma.preset τ ∧ Chanoma.neologdn σ = Chanoma.neologdn τ ∧
    (∀ c : Chanoma, c.usePreset σ = c.usePreset τ ∧ c.useNeologdn σ = c.useNeologdn τ) ∧
    (∀ (b : TableBuilder) items w path, b.preset σ = b.preset τ ∧ b.addCorr σ items = b.addCorr τ items ∧
      b.addFromCsv σ w path = b.addFromCsv τ w path ∧ b.addFromYaml σ w path = b.addFromYaml τ w path) ∧
    (∀ s, ModifierKind.fromStr σ s = ModifierKind.fromStr τ s) ∧
    (∀ w, Chanoma.loadRc σ w = Chanoma.loadRc τ w) ∧
    (∀ w path, Chanoma.fromConfigFile σ w path = Chanoma.fromConfigFile τ w path) ∧
    (∀ format, outputMain σ format = outputMain τ format) ∧
    (∀ w args, pyChanomaNew σ w args = pyChanomaNew τ w args) ∧
    (∀ w preset csv yaml, pyTableNew σ w preset csv yaml = pyTableNew τ w preset csv yaml) ∧
    ∀ s : PyCharactersSet, s.items σ = s.items τ := by
  have hp : Chanoma.usePreset σ = Chanoma.usePreset τ := by
    funext c; simp only [Chanoma.usePreset, allCharactersSet_oracle σ τ]
  have hn : Chanoma.useNeologdn σ = Chanoma.useNeologdn τ := by
    funext c; simp only [Chanoma.useNeologdn, neologdnNew_oracle σ τ]
  have ha : TableBuilder.addCorr σ = TableBuilder.addCorr τ := by
    funext b l; simp only [TableBuilder.addCorr, Table.add, corrAddAssign_oracle σ τ]
  have hc : TableBuilder.addFromCsv σ = TableBuilder.addFromCsv τ := by
    funext w b p; simp only [TableBuilder.addFromCsv, Table.add, corrAddAssign_oracle σ τ]
  have hy : TableBuilder.addFromYaml σ = TableBuilder.addFromYaml τ := by
    funext w b p; simp only [TableBuilder.addFromYaml, Table.add, corrAddAssign_oracle σ τ]
  have hrc : Chanoma.loadRc σ = Chanoma.loadRc τ := by
    funext w; simp only [Chanoma.loadRc, load_oracle σ τ]
  have hcf : Chanoma.fromConfigFile σ = Chanoma.fromConfigFile τ := by
    funext w p; simp only [Chanoma.fromConfigFile, loadFile_oracle σ τ]
  refine ⟨by simp only [Chanoma.preset, allCharactersSet_oracle σ τ],
    by simp only [Chanoma.neologdn, neologdnNew_oracle σ τ],
    fun c => ⟨by rw [hp], by rw [hn]⟩,
    fun b l w p => ⟨by rw [preset_oracle σ τ], by rw [ha], by rw [hc], by rw [hy]⟩,
    fun s => by simp only [ModifierKind.fromStr, neologdnNew_oracle σ τ],
    fun w => by rw [hrc], fun w p => by rw [hcf],
    fun f => by simp only [outputMain, outputMainCsv, outputMainYaml, preset_oracle σ τ],
    fun w a => by simp only [pyChanomaNew, hrc, hcf, hp, hn],
    fun w p c y => by simp only [pyTableNew, preset_oracle σ τ, hc, hy], fun s => ?_⟩
  cases s <;> simp only [PyCharactersSet.items, alphabetsItems, digitsItems, punctuationsItems, kanasItems,
    cjkItems, sumChain_oracle σ τ]

/-! ## Normalising -/

/-- The modifier has at most one ligature rule, or its rules do not interfere; every modifier of
another kind qualifies. -/
def OrderFree : ModifierKind → Prop
  | .ligatureTranslator x => x.map.length ≤ 1 ∨ NonInterfering x.map
  | _ => True

theorem iter_short (σ : Oracle) {α : Type} (l : List α) (h : l.length ≤ 1) : σ.iter l = l := by
  have hp := σ.iter_perm l
  match l, h with
  | [], _ => exact hp.eq_nil
  | [a], _ => exact List.perm_singleton.mp hp

theorem orderFree_modify {m : ModifierKind} (hw : m.WF) (ho : OrderFree m) (σ τ : Oracle) (t : Str) :
    m.modify σ t = m.modify τ t := by
  cases m with
  | characterConverter x => exact (modify_eq x σ t).trans (modify_eq x τ t).symm
  | ligatureTranslator x =>
    show Outcome.ok _ = Outcome.ok _
    rcases ho with ho | ho
    · unfold LigatureTranslator.modify
      rw [iter_short σ _ ho, iter_short τ _ ho]
    · rw [(C15_ligature_order_partial x ho hw t).2.2 σ τ]
  | neologdn x =>
    obtain ⟨σ', hx⟩ := hw
    obtain ⟨x', h1, -, h2, -⟩ := neologdn_new σ'
    rw [h1] at hx; cases hx
    exact (h2 σ t).trans (h2 τ t).symm
  | _ => rfl

theorem orderFree_positions {m : ModifierKind} (hw : m.WF) (ho : OrderFree m) (σ τ : Oracle) (t : Str) :
    ∃ r r', m.modifyWithPositions σ t = .ok r ∧ m.modifyWithPositions τ t = .ok r' ∧
      r.kind = r'.kind ∧ r.text = r'.text ∧ r.positions.Perm r'.positions := by
  obtain ⟨o, ps, h1, h2⟩ := wf_agree m hw σ t
  obtain ⟨o', ps', h1', h2'⟩ := wf_agree m hw τ t
  rw [orderFree_modify hw ho σ τ, h1'] at h1
  cases h1
  refine ⟨_, _, h2, h2', rfl, rfl, ?_⟩
  obtain ⟨qs, -, hq⟩ := positions_perm_ascending m t
  exact (hq σ _ h2).trans (hq τ _ h2').symm

theorem orderFree_records (σs τs : Nat → Oracle) (ms : List ModifierKind) (h : ∀ m ∈ ms, m.WF)
    (ho : ∀ m ∈ ms, OrderFree m) (n : Nat) (t : Str) (acc acc' : List ModifiedRecord)
    (ha : acc.map (fun r => (r.kind, r.text)) = acc'.map fun r => (r.kind, r.text))
    (hp : ∀ p ∈ acc.zip acc', p.1.positions.Perm p.2.positions) :
    ∃ rs rs' o o',
      (ms.zipIdx n).foldlM (fun (st : List ModifiedRecord × Str) (m : ModifierKind × Nat) => do
        let result ← m.1.modifyWithPositions (σs m.2) st.2
        return (st.1 ++ [result], result.text)) (acc, t) = Outcome.ok (rs, o) ∧
      (ms.zipIdx n).foldlM (fun (st : List ModifiedRecord × Str) (m : ModifierKind × Nat) => do
        let result ← m.1.modifyWithPositions (τs m.2) st.2
        return (st.1 ++ [result], result.text)) (acc', t) = Outcome.ok (rs', o') ∧
      rs.map (fun r => (r.kind, r.text)) = rs'.map (fun r => (r.kind, r.text)) ∧
      ∀ p ∈ rs.zip rs', p.1.positions.Perm p.2.positions := by
  induction ms generalizing n t acc acc' with
  | nil => exact ⟨acc, acc', t, t, rfl, rfl, ha, hp⟩
  | cons m ms ih =>
    obtain ⟨r, r', h1, h2, h3, h4, h5⟩ := orderFree_positions (h m (by simp)) (ho m (by simp)) (σs n) (τs n) t
    simp only [List.zipIdx_cons, List.foldlM_cons, h1, h2, Outcome.ok_bind, Outcome.pure_eq]
    rw [← h4]
    refine ih (fun m hm => h m (by simp [hm])) (fun m hm => ho m (by simp [hm])) _ _ _ _ ?_ ?_
    · simp [ha, h3, h4]
    · have hl : acc.length = acc'.length := by simpa using congrArg List.length ha
      rw [List.zip_append hl]
      intro p hm
      rcases List.mem_append.mp hm with hm | hm
      · exact hp p hm
      · simp at hm; subst hm; exact h5

/-- C66: a normaliser whose ligature rules do not interfere gives the same result for all hash
orders; the records of `normalize_with_positions` have the same modifiers and texts, and the same
positions up to their order. -/
theorem C66_normalising (c : Chanoma) (hc : ApiBuilt c) (ho : ∀ m ∈ c.modifiers, OrderFree m)
    (σs τs : Nat → Oracle) (text : Str) :
    (∀ debug, c.normalize σs debug text = c.normalize τs debug text) ∧
    ∃ rs rs', c.normalizeWithPositions σs text = .ok ⟨rs⟩ ∧ c.normalizeWithPositions τs text = .ok ⟨rs'⟩ ∧
      rs.map (fun r => (r.kind, r.text)) = rs'.map (fun r => (r.kind, r.text)) ∧
      ∀ p ∈ rs.zip rs', p.1.positions.Perm p.2.positions := by
  have hw := apiBuilt_wf hc
  obtain ⟨rs, rs', o, o', h1, h2, h3, h4⟩ := orderFree_records σs τs c.modifiers hw ho 0 text [] [] rfl (by simp)
  have e1 : c.normalizeWithPositions σs text = .ok ⟨rs⟩ := by
    unfold Chanoma.normalizeWithPositions; rw [h1]; rfl
  have e2 : c.normalizeWithPositions τs text = .ok ⟨rs'⟩ := by
    unfold Chanoma.normalizeWithPositions; rw [h2]; rfl
  have hf : c.normalize σs false text = c.normalize τs false text := by
    obtain ⟨qs, -, h5, h6⟩ := pipeline_eq c hw σs text
    obtain ⟨qs', -, h5', h6'⟩ := pipeline_eq c hw τs text
    rw [e1] at h5; cases h5
    rw [e2] at h5'; cases h5'
    rw [h6, h6']
    have := congrArg (fun l => (l.getLast?.map Prod.snd).getD text) h3
    simp only [List.getLast?_map, Option.map_map, Function.comp_def] at this
    exact congrArg Outcome.ok this
  refine ⟨fun debug => ?_, rs, rs', e1, e2, h3, h4⟩
  cases debug with
  | false => exact hf
  | true =>
    by_cases hne : c.modifiers = []
    · cases c; cases hne; rfl
    · rw [C21_debug_partial c hc hne, C21_debug_partial c hc hne, hf]

theorem bind_ok_congr {α β : Type} {x : Outcome α} {f g : α → Outcome β} (h : ∀ a, x = .ok a → f a = g a) :
    (x >>= f) = (x >>= g) := by
  cases x with
  | ok a => exact h a rfl
  | _ => rfl

/-- C66: what the command line program prints does not depend on the hash order, if the ligature
rules of the configuration do not interfere. -/
theorem C66_cli (σ τ : Oracle) (σs τs : Nat → Oracle) (w : World) (opts : CliOpts)
    (stdin : Except Str (List UInt8))
    (ho : ∀ c, Chanoma.loadRc σ w = .ok c → ∀ m ∈ c.modifiers, OrderFree m) :
    cliMain σ σs w opts stdin = cliMain τ τs w opts stdin := by
  obtain ⟨-, -, hu, -, -, hrc, -⟩ := C66_building σ τ
  unfold cliMain
  rw [← hrc w]
  cases hl : Chanoma.loadRc σ w with
  | err e => rfl
  | panic => rfl
  | ok c =>
    have h0 : ApiBuilt c ∧ ∀ m ∈ c.modifiers, OrderFree m := ⟨.loadRc hl, ho c hl⟩
    have hpre : ∀ c c' : Chanoma, (ApiBuilt c ∧ ∀ m ∈ c.modifiers, OrderFree m) → c.usePreset σ = .ok c' →
        ApiBuilt c' ∧ ∀ m ∈ c'.modifiers, OrderFree m := by
      intro c c' hb h
      refine ⟨.call (.usePreset σ) hb.1 h, ?_⟩
      simp only [Chanoma.usePreset, bind_eq_ok] at h
      obtain ⟨k, hk, h⟩ := h
      simp only [Chanoma.allCharactersSet, bind_eq_ok] at hk
      obtain ⟨x, -, hk⟩ := hk
      cases hk; cases h
      intro m hmm
      rcases List.mem_append.mp hmm with hmm | hmm
      · exact hb.2 m hmm
      · rw [List.mem_singleton.mp hmm]; trivial
    have hneo : ∀ c c' : Chanoma, (ApiBuilt c ∧ ∀ m ∈ c.modifiers, OrderFree m) → c.useNeologdn σ = .ok c' →
        ApiBuilt c' ∧ ∀ m ∈ c'.modifiers, OrderFree m := by
      intro c c' hb h
      refine ⟨.call (.useNeologdn σ) hb.1 h, ?_⟩
      simp only [Chanoma.useNeologdn, bind_eq_ok] at h
      obtain ⟨k, -, h⟩ := h
      cases h
      intro m hmm
      rcases List.mem_append.mp hmm with hmm | hmm
      · exact hb.2 m hmm
      · rw [List.mem_singleton.mp hmm]; trivial
    have hn : ∀ c2 : Chanoma, (ApiBuilt c2 ∧ ∀ m ∈ c2.modifiers, OrderFree m) → ∀ d t,
        c2.normalize σs d t = c2.normalize τs d t := fun c2 h d t => (C66_normalising c2 h.1 h.2 σs τs t).1 d
    have hu1 : Chanoma.usePreset τ = Chanoma.usePreset σ := funext fun c => (hu c).1.symm
    have hu2 : Chanoma.useNeologdn τ = Chanoma.useNeologdn σ := funext fun c => (hu c).2.symm
    obtain ⟨input, debug, preset, neologdn⟩ := opts
    simp only [Outcome.ok_bind, hu1, hu2]
    cases preset with
    | false =>
      cases neologdn with
      | false => cases input <;> simp only [Bool.false_eq_true, if_false, hn c h0]
      | true =>
        simp only [Bool.false_eq_true, if_false, if_true]
        refine bind_ok_congr fun c1 h1 => ?_
        cases input <;> simp only [hn c1 (hneo _ _ h0 h1)]
    | true =>
      simp only [if_true]
      refine bind_ok_congr fun c1 h1 => ?_
      have h1 := hpre _ _ h0 h1
      cases neologdn with
      | false => cases input <;> simp only [Bool.false_eq_true, if_false, hn c1 h1]
      | true =>
        simp only [if_true]
        refine bind_ok_congr fun c2 h2 => ?_
        cases input <;> simp only [hn c2 (hneo _ _ h1 h2)]

/-- A configuration with several ligature rules that do not interfere. -/
example : OrderFree (.ligatureTranslator ⟨[(c! "㈱", c! "(株)"), (c! "ハ゜", c! "パ")]⟩) :=
  .inr ⟨by decide, by decide +kernel⟩
/-- The positions may come in another order. -/
example : ∃ c, Chanoma.fromTable (Table.fromCorr [⟨c! "a", c! "b"⟩, ⟨c! "c", c! "d"⟩] .new) = .ok c ∧
    (∀ m ∈ c.modifiers, OrderFree m) ∧
    c.normalizeWithPositions (fun _ => .insertion) (c! "ac") ≠
      c.normalizeWithPositions (fun _ => .reversed) (c! "ac") :=
  ⟨⟨[.characterConverter ⟨[('a', 'b'), ('c', 'd')]⟩]⟩, by decide +kernel, by simp [OrderFree], by decide +kernel⟩

end Chanoma
