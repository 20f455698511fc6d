import Verif.Spec.Pipeline
import Verif.Proofs.Neologdn
/-! # Lemmas about pipelines -/

namespace Chanoma

theorem bind_eq_ok {α β : Type} {x : Outcome α} {f : α → Outcome β} {b : β} :
    (x >>= f) = .ok b ↔ ∃ a, x = .ok a ∧ f a = .ok b := by
  cases x <;> simp

theorem insert_perm_old {κ ν : Type} [DecidableEq κ] (m : HMap κ ν) (k : κ) (v : ν)
    (hn : (m.map Prod.fst).Nodup) : (m.insert k v).Perm (m.filter (fun e => e.1 ≠ k) ++ [(k, v)]) := by
  induction m with
  | nil => simp [HMap.insert]
  | cons e m ih =>
    obtain ⟨k', v'⟩ := e
    simp only [List.map_cons, List.nodup_cons] at hn
    rw [HMap.insert]
    split
    · rename_i h
      subst h
      have : (((k', v') :: m).filter fun e => e.1 ≠ k') = m := by
        rw [List.filter_cons_of_neg (by simp), List.filter_eq_self]
        intro a ha
        have : a.1 ≠ k' := fun h => hn.1 (h ▸ List.mem_map_of_mem ha)
        simpa using this
      rw [this]
      exact (List.perm_append_comm (l₁ := [(k', v)])).trans (.refl _)
    · rename_i h
      rw [List.filter_cons_of_pos (by simpa using h)]
      exact (ih hn.2).cons _

theorem insert_nodup {κ ν : Type} [DecidableEq κ] (m : HMap κ ν) (k : κ) (v : ν)
    (hn : (m.map Prod.fst).Nodup) : ((m.insert k v).map Prod.fst).Nodup := by
  rw [((insert_perm_old m k v hn).map Prod.fst).nodup_iff]
  simp only [List.map_append, List.map_cons, List.map_nil]
  rw [List.nodup_append]
  refine ⟨hn.sublist ((List.filter_sublist).map _), by simp, ?_⟩
  intro a ha b hb
  simp at hb; subst hb
  simp at ha
  intro h; subst h
  exact ha.2 rfl

theorem collect_nodup {κ ν : Type} [DecidableEq κ] (l : List (κ × ν)) :
    ((HMap.collect l).map Prod.fst).Nodup := by
  unfold HMap.collect
  suffices ∀ m : HMap κ ν, (m.map Prod.fst).Nodup →
      ((l.foldl (fun m kv => HMap.insert m kv.1 kv.2) m).map Prod.fst).Nodup from this [] (by simp)
  induction l with
  | nil => exact fun m h => h
  | cons r l ih => exact fun m h => ih _ (insert_nodup m r.1 r.2 h)

/-- A neologdn modifier comes from `Neologdn::new`, and the keys of ligature rules are distinct. -/
def ModifierKind.WF : ModifierKind → Prop
  | .neologdn x => ∃ σ, Neologdn.new σ = .ok x
  | .ligatureTranslator x => (x.map.map Prod.fst).Nodup
  | _ => True

/-- `modify` and `modify_with_positions` both succeed and agree. -/
theorem wf_agree (m : ModifierKind) (h : m.WF) (σ : Oracle) (t : Str) :
    ∃ o ps, m.modify σ t = .ok o ∧ m.modifyWithPositions σ t = .ok ⟨m, o, ps⟩ := by
  cases m with
  | characterConverter x =>
    obtain ⟨ps, hp, -⟩ := modifyWithPositions_eq x σ t
    exact ⟨_, ps, modify_eq x σ t, hp⟩
  | characterEliminator x => exact ⟨_, _, rfl, rfl⟩
  | consecutiveCharacterReducer x =>
    obtain ⟨s0, segs, rfl, h0, hok⟩ := exists_runs x.c t
    exact ⟨_, _, congrArg Outcome.ok (reducer_eq x _), reducer_positions x s0 segs h0 hok⟩
  | dottedSpaceEliminator => exact ⟨_, _, rfl, rfl⟩
  | ligatureTranslator x => exact ⟨_, _, rfl, rfl⟩
  | trim =>
    obtain ⟨a, b, -, hp⟩ := trimPos_eq t
    exact ⟨_, _, rfl, hp⟩
  | neologdn x =>
    obtain ⟨σ', hx⟩ := h
    obtain ⟨x', h1, -, h2, h3⟩ := neologdn_new σ'
    rw [h1] at hx; cases hx
    exact ⟨_, _, h2 σ t, h3 σ t⟩

/-- Text after the last record, or the input. -/
def lastText (t : Str) (rs : List ModifiedRecord) : Str := (rs.getLast?.map (·.text)).getD t

theorem lastText_cons (t : Str) (r : ModifiedRecord) (rs : List ModifiedRecord) :
    lastText t (r :: rs) = lastText r.text rs := by
  cases rs with
  | nil => rfl
  | cons s rs => simp [lastText, List.getLast?_cons]

theorem run_pipeline (σs : Nat → Oracle) (ms : List ModifierKind) (h : ∀ m ∈ ms, m.WF) :
    ∀ (i : Nat) (t : Str) (acc : List ModifiedRecord), ∃ rs, Chained σs i t ms rs ∧
      (ms.zipIdx i).foldlM (fun acc m => m.1.modify (σs m.2) acc) t = .ok (lastText t rs) ∧
      (ms.zipIdx i).foldlM
        (fun (st : List ModifiedRecord × Str) (m : ModifierKind × Nat) => do
          let result ← m.1.modifyWithPositions (σs m.2) st.2
          return (st.1 ++ [result], result.text)) (acc, t) = .ok (acc ++ rs, lastText t rs) := by
  induction ms with
  | nil => intro i t acc; exact ⟨[], trivial, rfl, by simp [lastText]⟩
  | cons m ms ih =>
    intro i t acc
    obtain ⟨o, ps, h1, h2⟩ := wf_agree m (h m (by simp)) (σs i) t
    obtain ⟨rs, h3, h4, h5⟩ := ih (fun m hm => h m (by simp [hm])) (i + 1) o (acc ++ [⟨m, o, ps⟩])
    refine ⟨⟨m, o, ps⟩ :: rs, ⟨rfl, h1, h3⟩, ?_, ?_⟩
    · rw [List.zipIdx_cons, List.foldlM_cons, lastText_cons]
      simp only [h1, Outcome.ok_bind]
      exact h4
    · rw [List.zipIdx_cons, List.foldlM_cons, lastText_cons]
      simp only [h2, Outcome.ok_bind, Outcome.pure_eq]
      simp only [List.append_assoc, List.singleton_append] at h5
      exact h5

theorem chained_length {σs : Nat → Oracle} {ms : List ModifierKind} {rs : List ModifiedRecord} {i : Nat}
    {t : Str} (h : Chained σs i t ms rs) : rs.length = ms.length := by
  induction ms generalizing i t rs with
  | nil => cases rs with
    | nil => rfl
    | cons _ _ => exact h.elim
  | cons m ms ih => cases rs with
    | nil => exact h.elim
    | cons r rs => simp [ih h.2.2]

theorem pipeline_eq (c : Chanoma) (h : ∀ m ∈ c.modifiers, m.WF) (σs : Nat → Oracle) (t : Str) :
    ∃ rs, Chained σs 0 t c.modifiers rs ∧ c.normalizeWithPositions σs t = .ok ⟨rs⟩ ∧
      c.normalize σs false t = .ok (lastText t rs) := by
  obtain ⟨rs, h1, h2, h3⟩ := run_pipeline σs c.modifiers h 0 t []
  refine ⟨rs, h1, ?_, ?_⟩
  · unfold Chanoma.normalizeWithPositions
    rw [h3]; rfl
  · unfold Chanoma.normalize
    simp only [Bool.not_false, if_true]
    exact h2

theorem records_text (rs : List ModifiedRecord) (t : Str) (h : rs ≠ []) :
    (ModifiedRecords.mk rs).text = .ok (lastText t rs) := by
  cases hl : rs.getLast? with
  | none => simp at hl; exact absurd hl h
  | some r => simp [ModifiedRecords.text, lastText, hl, unwrap]

/-! ## What the public functions build is well-formed -/

theorem fromYaml_wf {σ : Oracle} {k v : YValue} {m : ModifierKind}
    (h : ModifierKind.fromYaml σ k v = .ok m) : m.WF := by
  unfold ModifierKind.fromYaml at h
  rw [bind_eq_ok] at h
  obtain ⟨s, -, h⟩ := h
  split at h
  · rw [bind_eq_ok] at h; obtain ⟨x, -, h⟩ := h; cases h; trivial
  split at h
  · rw [bind_eq_ok] at h; obtain ⟨x, -, h⟩ := h; cases h; trivial
  split at h
  · rw [bind_eq_ok] at h; obtain ⟨x, -, h⟩ := h; cases h; trivial
  split at h
  · rw [bind_eq_ok] at h; obtain ⟨x, hx, h⟩ := h; cases h
    simp only [LigatureTranslator.fromYaml, bind_eq_ok] at hx
    obtain ⟨_, -, l, -, hx⟩ := hx
    cases hx
    exact collect_nodup l
  split at h
  · rw [bind_eq_ok] at h; obtain ⟨x, -, h⟩ := h; cases h; trivial
  split at h
  · rw [bind_eq_ok] at h; obtain ⟨x, -, h⟩ := h; cases h; trivial
  split at h
  · rw [bind_eq_ok] at h
    obtain ⟨x, hx, h⟩ := h
    cases h
    unfold Neologdn.fromYaml at hx
    split at hx
    · exact ⟨σ, hx⟩
    · cases hx
  · cases h

theorem fromStr_wf {σ : Oracle} {s : Str} {m : ModifierKind}
    (h : ModifierKind.fromStr σ s = .ok m) : m.WF := by
  unfold ModifierKind.fromStr at h
  split at h
  · rw [bind_eq_ok] at h; obtain ⟨x, hx, h⟩ := h; cases h; exact ⟨σ, hx⟩
  split at h
  · cases h; trivial
  split at h
  · cases h; trivial
  split at h
  · simp only [bind_eq_ok] at h; obtain ⟨_, _, x, -, h⟩ := h; cases h; trivial
  split at h
  · simp only [bind_eq_ok] at h; obtain ⟨_, _, x, hx, h⟩ := h; cases h
    unfold LigatureTranslator.fromStr at hx
    split at hx
    · cases hx; exact collect_nodup _
    · cases hx
  split at h
  · simp only [bind_eq_ok] at h; obtain ⟨_, _, x, -, h⟩ := h; cases h; trivial
  split at h
  · simp only [bind_eq_ok] at h; obtain ⟨_, _, x, -, h⟩ := h; cases h; trivial
  · cases h

theorem yamlModifiers_wf {σ : Oracle} {data : YValue} {ms : List ModifierKind}
    (h : yamlModifiers σ data = .ok ms) : ∀ m ∈ ms, m.WF := by
  unfold yamlModifiers at h
  split at h
  · rw [bind_eq_ok] at h
    obtain ⟨l, -, h⟩ := h
    suffices ∀ acc : List ModifierKind, (∀ m ∈ acc, m.WF) →
        l.foldlM (fun ms (e : YValue × YValue) => do
          return ms ++ [← ModifierKind.fromYaml σ e.1 e.2]) acc = .ok ms → ∀ m ∈ ms, m.WF from
      this [] (by simp) h
    clear h
    induction l with
    | nil => intro acc ha h; cases h; exact ha
    | cons e l ih =>
      intro acc ha h
      rw [List.foldlM_cons, bind_eq_ok] at h
      obtain ⟨acc', h1, h2⟩ := h
      rw [bind_eq_ok] at h1
      obtain ⟨m, hm, h1⟩ := h1
      cases h1
      refine ih _ ?_ h2
      intro m' hm'
      rcases List.mem_append.mp hm' with hm' | hm'
      · exact ha m' hm'
      · simp at hm'; subst hm'; exact fromYaml_wf hm
  · cases h; simp

theorem loadFile_wf {σ : Oracle} {w : World} {path : OsStr} {ms : List ModifierKind}
    (h : Configuration.loadFileWithExt σ w path = .ok ms) : ∀ m ∈ ms, m.WF := by
  unfold Configuration.loadFileWithExt at h
  simp only [bind_eq_ok] at h
  obtain ⟨ext, -, conv, -, mods, hm, h⟩ := h
  cases h
  intro m hmem
  rcases List.mem_append.mp hmem with hmem | hmem
  · unfold Configuration.loadModifiers at hm
    split at hm
    · unfold modifiersFromYamlPath at hm
      rw [bind_eq_ok] at hm
      obtain ⟨d, -, hm⟩ := hm
      exact yamlModifiers_wf hm m hmem
    · cases hm; simp at hmem
  · simp at hmem; subst hmem; trivial

theorem mapM_ok_mem {α β : Type} {f : α → Outcome β} {l : List α} {r : List β}
    (h : l.mapM f = .ok r) : ∀ y ∈ r, ∃ x ∈ l, f x = .ok y := by
  induction l generalizing r with
  | nil => simp at h; subst h; simp
  | cons a l ih =>
    rw [List.mapM_cons, bind_eq_ok] at h
    obtain ⟨b, hb, h⟩ := h
    rw [bind_eq_ok] at h
    obtain ⟨bs, hbs, h⟩ := h
    cases h
    intro y hy
    rcases List.mem_cons.mp hy with rfl | hy
    · exact ⟨a, by simp, hb⟩
    · obtain ⟨x, hx, hy⟩ := ih hbs y hy
      exact ⟨x, by simp [hx], hy⟩

theorem load_wf {σ : Oracle} {w : World} {ms : List ModifierKind}
    (h : Configuration.load σ w = .ok ms) : ∀ m ∈ ms, m.WF := by
  unfold Configuration.load at h
  rw [bind_eq_ok] at h
  obtain ⟨paths, -, h⟩ := h
  split at h
  · cases h; simp
  · rw [bind_eq_ok] at h
    obtain ⟨r, hr, h⟩ := h
    cases h
    intro m hm
    obtain ⟨l, hl, hm⟩ := List.mem_flatten.mp hm
    obtain ⟨p, -, hp⟩ := mapM_ok_mem hr l hl
    exact loadFile_wf hp m hm

theorem call_run {c c' : Chanoma} {call : Call} (h : call.run c = .ok c') :
    ∃ k, c'.modifiers = c.modifiers ++ [k] ∧ k.WF ∧
      ∀ σ t, k.modify σ t = .ok (call.meaning t) := by
  cases call with
  | usePreset σ =>
    obtain ⟨x, h1, h2⟩ := fromTables_one_ok _ (preset_nonempty σ)
    simp [Call.run, Chanoma.usePreset, Chanoma.allCharactersSet, h1] at h
    subst h
    refine ⟨_, rfl, trivial, fun τ t => ?_⟩
    simp [ModifierKind.modify, modify_eq, h2, preset_substitute, Call.meaning]
  | useNeologdn σ =>
    obtain ⟨x, h1, -, h2, -⟩ := neologdn_new σ
    simp [Call.run, Chanoma.useNeologdn, h1] at h
    subst h
    exact ⟨_, rfl, ⟨σ, h1⟩, fun τ t => h2 τ t⟩
  | addTable t =>
    by_cases hne : CellsNonEmpty t.items
    · obtain ⟨x, h1, h2⟩ := fromTables_one_ok t hne
      simp [Call.run, Chanoma.addTable, h1] at h
      subst h
      refine ⟨_, rfl, trivial, fun τ s => ?_⟩
      simp [ModifierKind.modify, modify_eq, h2, Call.meaning]
    · simp [Call.run, Chanoma.addTable, fromTables_one_panic t hne] at h

theorem call_succeeds (c : Chanoma) (call : Call) : (∃ c', call.run c = .ok c') ↔ call.Accepted := by
  cases call with
  | usePreset σ =>
    obtain ⟨x, h1, -⟩ := fromTables_one_ok _ (preset_nonempty σ)
    simp [Call.run, Chanoma.usePreset, Chanoma.allCharactersSet, h1, Call.Accepted]
  | useNeologdn σ =>
    obtain ⟨x, h1, -⟩ := neologdn_new σ
    simp [Call.run, Chanoma.useNeologdn, h1, Call.Accepted]
  | addTable t =>
    by_cases hne : CellsNonEmpty t.items
    · obtain ⟨x, h1, -⟩ := fromTables_one_ok t hne
      simp [Call.run, Chanoma.addTable, h1, Call.Accepted, hne]
    · simp [Call.run, Chanoma.addTable, fromTables_one_panic t hne, Call.Accepted, hne]

theorem apiBuilt_wf {c : Chanoma} (h : ApiBuilt c) : ∀ m ∈ c.modifiers, m.WF := by
  induction h with
  | new => simp [Chanoma.new]
  | @preset σ c hc =>
    have : (Call.usePreset σ).run Chanoma.new = .ok c := by
      rw [← hc]; simp [Call.run, Chanoma.usePreset, Chanoma.preset, Chanoma.new]
    obtain ⟨k, hk, hwf, -⟩ := call_run this
    rw [hk]; simpa [Chanoma.new] using hwf
  | @neologdn σ c hc =>
    have : (Call.useNeologdn σ).run Chanoma.new = .ok c := by
      rw [← hc]; simp [Call.run, Chanoma.useNeologdn, Chanoma.neologdn, Chanoma.new]
    obtain ⟨k, hk, hwf, -⟩ := call_run this
    rw [hk]; simpa [Chanoma.new] using hwf
  | @fromTable t c hc =>
    have : (Call.addTable t).run Chanoma.new = .ok c := by
      rw [← hc]; simp [Call.run, Chanoma.addTable, Chanoma.fromTable, Chanoma.new]
    obtain ⟨k, hk, hwf, -⟩ := call_run this
    rw [hk]; simpa [Chanoma.new] using hwf
  | loadRc hc =>
    unfold Chanoma.loadRc at hc
    rw [bind_eq_ok] at hc
    obtain ⟨ms, hms, hc⟩ := hc
    cases hc
    exact load_wf hms
  | fromConfigFile hc =>
    unfold Chanoma.fromConfigFile at hc
    rw [bind_eq_ok] at hc
    obtain ⟨ms, hms, hc⟩ := hc
    cases hc
    exact loadFile_wf hms
  | call call _ hrun ih =>
    obtain ⟨k, hk, hwf, -⟩ := call_run hrun
    rw [hk]
    intro m hm
    rcases List.mem_append.mp hm with hm | hm
    · exact ih m hm
    · simp at hm; subst hm; exact hwf

end Chanoma
