import Verif.Spec.Settled
import Verif.Props.Pipeline
import Verif.Props.Conversion
/-! # C63: substitutions can be undone from the reported positions -/

namespace Chanoma

theorem undo_eq (input : Str) (ps : List Position) (t : Str) (hl : t.length = input.length)
    (hp : ∀ p ∈ ps, ∃ a, p.from = [a] ∧ input[p.index]? = some a)
    (hk : ∀ i, (∀ p ∈ ps, p.index ≠ i) → t[i]? = input[i]?) : undo ps t = input := by
  induction ps generalizing t with
  | nil => exact List.ext_getElem? fun i => hk i (by simp)
  | cons p ps ih =>
    obtain ⟨a, h1, h2⟩ := hp p (by simp)
    have hlt : p.index < t.length := by
      rw [hl]; exact (List.getElem?_eq_some_iff.mp h2).1
    have := ih (t.set p.index a) (by simp [hl]) (fun q hq => hp q (by simp [hq])) (fun i hi => by
      by_cases e : p.index = i
      · subst e
        rw [List.getElem?_set_self hlt, h2]
      · rw [List.getElem?_set_ne e]
        exact hk i (by simpa [e] using hi))
    simpa [undo, h1] using this

theorem converter_undo (x : CharacterConverter) (σ : Oracle) (input : Str) :
    ∃ ps, x.modifyWithPositions σ input = .ok ⟨.characterConverter x, substitute x.itemsMap.get? input, ps⟩ ∧
      undo ps (substitute x.itemsMap.get? input) = input := by
  obtain ⟨ps, h1, h2⟩ := modifyWithPositions_eq x σ input
  rw [occPos_substPositions] at h2
  refine ⟨ps, h1, undo_eq input ps _ (by simp [substitute]) ?_ ?_⟩
  · intro p hp
    obtain ⟨u, c, d, v, rfl, -, rfl⟩ := (mem_substPositions _ _ _ _).mp (h2.mem_iff.mp hp)
    exact ⟨c, rfl, by simp [substPosition]⟩
  · intro i hi
    rw [substitute, List.getElem?_map]
    cases hc : input[i]? with
    | none => rfl
    | some c =>
      cases hd : x.itemsMap.get? c with
      | none => simp [hd]
      | some d =>
        obtain ⟨hlt, hcc⟩ := List.getElem?_eq_some_iff.mp hc
        refine absurd ?_ (hi (substPosition (input.take i) c d)
          (h2.mem_iff.mpr ((mem_substPositions _ _ _ _).mpr
            ⟨input.take i, c, d, input.drop (i + 1), ?_, hd, rfl⟩)))
        · simp only [substPosition, List.length_take]; omega
        · rw [← hcc, ← List.drop_eq_getElem_cons hlt, List.take_append_drop]

theorem converters_undo (σs : Nat → Oracle) (ms : List ModifierKind)
    (h : ∀ m ∈ ms, ∃ x, m = .characterConverter x) :
    ∀ (i : Nat) (t : Str) (acc : List ModifiedRecord), ∃ rs out,
      (ms.zipIdx i).foldlM (fun acc m => m.1.modify (σs m.2) acc) t = .ok out ∧
      (ms.zipIdx i).foldlM
        (fun (st : List ModifiedRecord × Str) (m : ModifierKind × Nat) => do
          let result ← m.1.modifyWithPositions (σs m.2) st.2
          return (st.1 ++ [result], result.text)) (acc, t) = .ok (acc ++ rs, out) ∧
      rs.foldr (fun r t => undo r.positions t) out = t := by
  induction ms with
  | nil => intro i t acc; exact ⟨[], t, rfl, by simp, rfl⟩
  | cons m ms ih =>
    intro i t acc
    obtain ⟨x, rfl⟩ := h m (by simp)
    obtain ⟨ps, h1, h2⟩ := converter_undo x (σs i) t
    obtain ⟨rs, out, h3, h4, h5⟩ := ih (fun m hm => h m (by simp [hm])) (i + 1)
      (substitute x.itemsMap.get? t) (acc ++ [⟨.characterConverter x, substitute x.itemsMap.get? t, ps⟩])
    refine ⟨⟨.characterConverter x, substitute x.itemsMap.get? t, ps⟩ :: rs, out, ?_, ?_, ?_⟩
    · rw [List.zipIdx_cons, List.foldlM_cons]
      have h0 : ModifierKind.modify (σs i) t (.characterConverter x) = .ok (substitute x.itemsMap.get? t) :=
        modify_eq x (σs i) t
      simp only [h0, Outcome.ok_bind]
      exact h3
    · rw [List.zipIdx_cons, List.foldlM_cons]
      have h0 := h1
      change ModifierKind.modifyWithPositions (σs i) t (.characterConverter x) = _ at h0
      simp only [h0, Outcome.ok_bind, Outcome.pure_eq]
      simp only [List.append_assoc, List.singleton_append] at h4
      exact h4
    · simp only [List.foldr_cons, h5, h2]

/-- C63: in a pipeline of tables, from the last record back to the first writing each position's
`from` at its index turns the result into the input again, whatever the order of the positions. -/
theorem C63_undo (c : Chanoma) (h : ∀ m ∈ c.modifiers, ∃ x, m = .characterConverter x)
    (σs : Nat → Oracle) (text : Str) :
    ∃ rs out, c.normalizeWithPositions σs text = .ok ⟨rs⟩ ∧ c.normalize σs false text = .ok out ∧
      rs.foldr (fun r t => undo r.positions t) out = text := by
  obtain ⟨rs, out, h1, h2, h3⟩ := converters_undo σs c.modifiers h 0 text []
  refine ⟨rs, out, ?_, ?_, h3⟩
  · unfold Chanoma.normalizeWithPositions
    rw [h2]; rfl
  · unfold Chanoma.normalize
    simpa using h1

/-- C63: so the result and the positions determine the input. -/
theorem C63_positions_determine_input (c : Chanoma) (h : ∀ m ∈ c.modifiers, ∃ x, m = .characterConverter x)
    (σs τs : Nat → Oracle) (a b out : Str) (rs rs' : ModifiedRecords)
    (ha : c.normalizeWithPositions σs a = .ok rs) (hb : c.normalizeWithPositions τs b = .ok rs')
    (oa : c.normalize σs false a = .ok out) (ob : c.normalize τs false b = .ok out)
    (hp : rs.records.map (·.positions) = rs'.records.map (·.positions)) : a = b := by
  obtain ⟨r1, o1, h1, h2, h3⟩ := C63_undo c h σs a
  obtain ⟨r2, o2, h4, h5, h6⟩ := C63_undo c h τs b
  rw [ha] at h1; cases h1
  rw [hb] at h4; cases h4
  rw [oa] at h2; cases h2
  rw [ob] at h5; cases h5
  have key : ∀ rs : List ModifiedRecord, rs.foldr (fun r t => undo r.positions t) out =
      (rs.map (·.positions)).foldr undo out := by
    intro rs; rw [List.foldr_map]
  rw [← h3, ← h6, key, key, hp]

/-- C63: the pipelines made by calls that do not ask for neologdn are of that kind. -/
theorem C63_calls (calls : List Call) (hn : ∀ σ, Call.useNeologdn σ ∉ calls) (c : Chanoma)
    (hc : calls.foldlM Call.run Chanoma.new = .ok c) :
    ∀ m ∈ c.modifiers, ∃ x, m = .characterConverter x := by
  suffices ∀ c0 : Chanoma, (∀ m ∈ c0.modifiers, ∃ x, m = .characterConverter x) →
      calls.foldlM Call.run c0 = .ok c → ∀ m ∈ c.modifiers, ∃ x, m = .characterConverter x from
    this Chanoma.new (by simp [Chanoma.new]) hc
  clear hc
  induction calls with
  | nil => intro c0 h0 h; cases h; exact h0
  | cons call calls ih =>
    intro c0 h0 h
    rw [List.foldlM_cons, bind_eq_ok] at h
    obtain ⟨c1, h1, h2⟩ := h
    refine ih (fun σ hσ => hn σ (by simp [hσ])) c1 ?_ h2
    cases call with
    | usePreset σ =>
      simp only [Call.run, Chanoma.usePreset, bind_eq_ok] at h1
      obtain ⟨k, hk, h1⟩ := h1
      obtain ⟨x, hx, -⟩ := allCharactersSet_ok σ
      rw [hx] at hk; cases hk
      cases h1
      intro m hm
      simp only [List.mem_append, List.mem_singleton] at hm
      rcases hm with hm | rfl
      · exact h0 m hm
      · exact ⟨_, rfl⟩
    | useNeologdn σ => exact absurd (by simp) (hn σ)
    | addTable t =>
      simp only [Call.run, Chanoma.addTable, bind_eq_ok] at h1
      obtain ⟨x, -, h1⟩ := h1
      cases h1
      intro m hm
      simp only [List.mem_append, List.mem_singleton] at hm
      rcases hm with hm | rfl
      · exact h0 m hm
      · exact ⟨_, rfl⟩

/-- Two tables; the positions of the second refer to the text after the first. -/
example : (do
    let c ← [Call.addTable (Table.fromCorr [⟨c! "a", c! "あ"⟩] .new), .addTable (Table.fromCorr [⟨c! "あ", c! "ア"⟩] .new)].foldlM
      Call.run Chanoma.new
    let rs ← c.normalizeWithPositions (fun _ => .reversed) (c! "aあb")
    return rs.records.map (fun (r : ModifiedRecord) => undo r.positions r.text)) = .ok [c! "aあb", c! "ああb"] := by decide +kernel

end Chanoma
