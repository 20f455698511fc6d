import Verif.Props.Rename
/-! # C80: what is reported about a renamed text -/

namespace Chanoma

theorem strLen_rename {ρ : Char → Char} (hz : ∀ c, (ρ c).utf8Size = c.utf8Size) (t : Str) :
    strLen (t.map ρ) = strLen t := by
  induction t with
  | nil => rfl
  | cons c t ih => rw [List.map_cons, strLen_cons, strLen_cons, ih, hz]

theorem substPositions_rename {ρ : Char → Char} (hz : ∀ c, (ρ c).utf8Size = c.utf8Size)
    {f : Char → Option Char} (hf : ∀ c, f (ρ c) = f c) (hfix : ∀ c, f c ≠ none → ρ c = c)
    (pre text : Str) : substPositions f (pre.map ρ) (text.map ρ) = substPositions f pre text := by
  induction text generalizing pre with
  | nil => rfl
  | cons c text ih =>
    have h := ih (pre ++ [c])
    rw [List.map_append, List.map_singleton] at h
    rw [List.map_cons, substPositions, substPositions, h, hf]
    cases e : f c with
    | none => rfl
    | some d => simp only [hfix c (by simp [e]), List.length_map, strLen_rename hz]

theorem runsText_rename {ρ : Char → Char} {c : Char} (hc : ρ c = c) (segs : List (Nat × Str)) :
    (runsText c segs).map ρ = runsText c (segs.map fun s => (s.1, s.2.map ρ)) := by
  induction segs with
  | nil => rfl
  | cons s segs ih =>
    simp only [runsText, List.flatMap_cons, List.map_append, List.map_replicate, hc, List.map_cons] at ih ⊢
    rw [ih]

theorem notMem_rename {ρ : Char → Char} {c : Char} (hc : ∀ d, ρ d = c ↔ d = c) {s : Str} (h : c ∉ s) :
    c ∉ s.map ρ := by
  intro hm
  obtain ⟨d, hd, e⟩ := List.mem_map.1 hm
  exact h ((hc d).1 e ▸ hd)

theorem RunsOk.rename {ρ : Char → Char} {c : Char} (hc : ∀ d, ρ d = c ↔ d = c) :
    ∀ {segs : List (Nat × Str)}, RunsOk c segs → RunsOk c (segs.map fun s => (s.1, s.2.map ρ))
  | [], _ => trivial
  | [_], h => ⟨h.1, notMem_rename hc h.2⟩
  | s :: s' :: rest, h => ⟨h.1, notMem_rename hc h.2.1, by
      have := h.2.2.1
      simpa using this, RunsOk.rename hc (segs := s' :: rest) h.2.2.2⟩

theorem reducerPositions_rename {ρ : Char → Char} (hz : ∀ c, (ρ c).utf8Size = c.utf8Size) {c : Char}
    (hc : ∀ d, ρ d = c ↔ d = c) (total : Nat) (pre : Str) (segs : List (Nat × Str)) :
    reducerPositions c total (pre.map ρ) (segs.map fun s => (s.1, s.2.map ρ)) =
      reducerPositions c total pre segs := by
  induction segs generalizing pre with
  | nil => rfl
  | cons s segs ih =>
    have h := ih (pre ++ List.replicate s.1 c ++ s.2)
    rw [List.map_append, List.map_append, List.map_replicate, (hc c).2 rfl] at h
    rw [List.map_cons, reducerPositions, reducerPositions, h, squeeze_rename hc, strLen_rename hz]
    simp only [List.length_map, List.map_eq_nil_iff]

theorem trimStart_rename {ρ : Char → Char} (h : ∀ d, ρ d = ' ' ↔ d = ' ') (t : Str) :
    trimStartMatches ' ' (t.map ρ) = (trimStartMatches ' ' t).map ρ := by
  unfold trimStartMatches
  induction t with
  | nil => rfl
  | cons a t ih =>
    rw [List.map_cons, List.dropWhile_cons, List.dropWhile_cons, ih]
    simp only [beq_iff_eq, h]
    split <;> rfl

theorem trimPos_rename {ρ : Char → Char} (hz : ∀ c, (ρ c).utf8Size = c.utf8Size)
    (h : ∀ d, ρ d = ' ' ↔ d = ' ') {t : Str} {r : ModifiedRecord} (hr : trimModifyWithPositions t = .ok r) :
    trimModifyWithPositions (t.map ρ) = .ok ⟨.trim, r.text.map ρ, r.positions⟩ := by
  obtain ⟨a, b, h1, h2, -, h3⟩ := trimPos_lengths t
  obtain ⟨a', b', h1', h2', -, h3'⟩ := trimPos_lengths (t.map ρ)
  rw [trim_rename h] at h2' h3'
  rw [trimStart_rename h] at h1' h2'
  simp only [List.length_map, strLen_rename hz] at h1' h2' h3'
  obtain rfl : a' = a := by omega
  obtain rfl : b' = b := by omega
  rw [h3] at hr
  cases hr
  exact h3'

theorem positions_rename {k : ModifierKind} (hk : k.WF) {ρ : Char → Char} (h1 : ∀ c, Mentions k c → ρ c = c)
    (h2 : ∀ c, ¬ Mentions k c → ¬ Mentions k (ρ c))
    (h3 : TellsAlnum k → ∀ c, isAsciiAlphanumeric (ρ c) = isAsciiAlphanumeric c)
    (hz : ∀ c, (ρ c).utf8Size = c.utf8Size) (σ : Oracle) (t : Str) :
    ∃ r r', k.modifyWithPositions σ t = .ok r ∧ k.modifyWithPositions σ (t.map ρ) = .ok r' ∧
      r'.kind = r.kind ∧ r'.text = r.text.map ρ ∧ r'.positions.Perm r.positions := by
  obtain ⟨o, ps, g1, g2⟩ := wf_agree k hk σ t
  obtain ⟨o', ps', g1', g2'⟩ := wf_agree k hk σ (t.map ρ)
  obtain ⟨o'', e1, e2⟩ := modify_rename hk h1 h2 h3 σ t
  rw [g1] at e1; cases e1
  rw [g1'] at e2
  refine ⟨_, _, g2, g2', rfl, Outcome.ok.inj e2, ?_⟩
  clear e2 g1 g1'
  show ps'.Perm ps
  have hm : ∀ c, Mentions k c → ∀ d, ρ d = c ↔ d = c := by
    intro c hc d
    constructor
    · intro e
      by_cases hd : Mentions k d
      · rw [← e, h1 d hd]
      · exact absurd (e ▸ hc) (h2 d hd)
    · rintro rfl; exact h1 _ hc
  cases k with
  | characterConverter x =>
    obtain ⟨qs, q1, q2⟩ := modifyWithPositions_eq x σ t
    obtain ⟨qs', q1', q2'⟩ := modifyWithPositions_eq x σ (t.map ρ)
    rw [ModifierKind.modifyWithPositions, q1] at g2; cases g2
    rw [ModifierKind.modifyWithPositions, q1'] at g2'; cases g2'
    rw [occPos_substPositions] at q2 q2'
    have hfix : ∀ c, x.itemsMap.get? c ≠ none → ρ c = c := by
      intro c hc
      cases e : x.itemsMap.get? c with
      | none => exact absurd e hc
      | some d => exact h1 c ⟨_, hget_mem e, .inl rfl⟩
    have := substPositions_rename hz (f := x.itemsMap.get?) (fun c => by
      cases e : x.itemsMap.get? c with
      | some d => rw [hfix c (by simp [e]), e]
      | none =>
        cases e' : x.itemsMap.get? (ρ c) with
        | none => rfl
        | some d =>
          have := (hm (ρ c) ⟨_, hget_mem e', .inl rfl⟩ c).1 rfl
          rw [← this, e] at e'; cases e') hfix [] t
    rw [List.map_nil] at this
    rw [this] at q2'
    exact q2'.trans q2.symm
  | consecutiveCharacterReducer x =>
    have hc := hm x.c rfl
    obtain ⟨s0, segs, rfl, i1, i2⟩ := exists_runs x.c t
    have j := reducer_positions x (s0.map ρ) _ (notMem_rename hc i1) (i2.rename hc)
    rw [← runsText_rename ((hc _).2 rfl), ← List.map_append, strLen_rename hz, reducerPositions_rename hz hc] at j
    rw [ModifierKind.modifyWithPositions, reducer_positions x s0 segs i1 i2] at g2
    rw [ModifierKind.modifyWithPositions, j] at g2'
    cases g2; cases g2'
    exact .refl _
  | trim =>
    have := trimPos_rename hz (hm ' ' rfl) g2
    rw [ModifierKind.modifyWithPositions, this] at g2'
    cases g2'; exact .refl _
  | characterEliminator x => cases g2; cases g2'; exact .refl _
  | dottedSpaceEliminator => cases g2; cases g2'; exact .refl _
  | ligatureTranslator x => cases g2; cases g2'; exact .refl _
  | neologdn n =>
    have hp : ∀ (t : Str) (r : ModifiedRecord), n.modifyWithPositions σ t = .ok r → r.positions = [] := by
      intro t r h
      unfold Neologdn.modifyWithPositions at h
      cases e : n.characterConverter.modifyWithPositions σ t with
      | err _ => rw [e] at h; cases h
      | panic => rw [e] at h; cases h
      | ok r1 =>
        rw [e, Outcome.ok_bind] at h
        cases e' : n.consecutive.modifyWithPositions r1.text with
        | err _ => rw [e'] at h; cases h
        | panic => rw [e'] at h; cases h
        | ok r2 => rw [e'] at h; cases h; rfl
    have a := hp _ _ g2
    have b := hp _ _ g2'
    simp only at a b
    rw [a, b]

/-- C80 with positions: a renaming that also keeps the lengths in UTF-8 changes nothing in what is
reported: the same modifiers report the same positions (up to the order, which depends on the hash order),
and the intermediate texts are the renamed ones. -/
theorem C80_positions {c : Chanoma} (hc : ApiBuilt c) {ρ : Char → Char} (hρ : Renaming c ρ)
    (hz : ∀ ch, (ρ ch).utf8Size = ch.utf8Size) (σs : Nat → Oracle) (text : Str) :
    ∃ rs rs', c.normalizeWithPositions σs text = .ok ⟨rs⟩ ∧
      c.normalizeWithPositions σs (text.map ρ) = .ok ⟨rs'⟩ ∧ rs'.length = rs.length ∧
      ∀ p ∈ rs.zip rs', p.2.kind = p.1.kind ∧ p.2.text = p.1.text.map ρ ∧
        p.2.positions.Perm p.1.positions := by
  have hw := apiBuilt_wf hc
  have key : ∀ (ms : List ModifierKind), (∀ m ∈ ms, m ∈ c.modifiers) → ∀ (i : Nat) (text : Str)
      (acc acc' : List ModifiedRecord), acc'.length = acc.length →
      (∀ p ∈ acc.zip acc', p.2.kind = p.1.kind ∧ p.2.text = p.1.text.map ρ ∧ p.2.positions.Perm p.1.positions) →
      ∃ rs rs' o o',
        (ms.zipIdx i).foldlM (fun (st : List ModifiedRecord × Str) (m : ModifierKind × Nat) => do
          let result ← m.1.modifyWithPositions (σs m.2) st.2
          return (st.1 ++ [result], result.text)) (acc, text) = Outcome.ok (rs, o) ∧
        (ms.zipIdx i).foldlM (fun (st : List ModifiedRecord × Str) (m : ModifierKind × Nat) => do
          let result ← m.1.modifyWithPositions (σs m.2) st.2
          return (st.1 ++ [result], result.text)) (acc', text.map ρ) = Outcome.ok (rs', o') ∧
        rs'.length = rs.length ∧
        ∀ p ∈ rs.zip rs', p.2.kind = p.1.kind ∧ p.2.text = p.1.text.map ρ ∧
          p.2.positions.Perm p.1.positions := by
    intro ms
    induction ms with
    | nil => intro _ i text acc acc' hl ha; exact ⟨acc, acc', _, _, rfl, rfl, hl, ha⟩
    | cons m ms ih =>
      intro hs i text acc acc' hl ha
      have hmem := hs m (by simp)
      obtain ⟨r, r', g1, g2, g3, g4, g5⟩ := positions_rename (hw m hmem) (ρ := ρ)
        (fun ch hch => hρ.fixed ch ⟨m, hmem, hch⟩)
        (fun ch hch => by
          by_cases hm : c.Mentions ch
          · rw [hρ.fixed ch hm]; exact hch
          · exact fun h => hρ.apart ch hm ⟨m, hmem, h⟩)
        (fun ht => hρ.alnum ⟨m, hmem, ht⟩) hz (σs i) text
      simp only [List.zipIdx_cons, List.foldlM_cons, g1, g2, Outcome.ok_bind, Outcome.pure_eq]
      rw [g4]
      refine ih (fun m hm => hs m (by simp [hm])) _ _ _ _ (by simp [hl]) ?_
      rw [List.zip_append hl.symm]
      intro p hm
      rcases List.mem_append.1 hm with hm | hm
      · exact ha p hm
      · simp at hm; subst hm; exact ⟨g3, g4, g5⟩
  obtain ⟨rs, rs', o, o', k1, k2, k3, k4⟩ := key c.modifiers (fun _ h => h) 0 text [] [] rfl (by simp)
  refine ⟨rs, rs', ?_, ?_, k3, k4⟩
  · unfold Chanoma.normalizeWithPositions; rw [k1]; rfl
  · unfold Chanoma.normalizeWithPositions; rw [k2]; rfl

/-- The renaming of the example for `C80_rename` keeps the lengths. -/
example (ch : Char) :
    ((fun ch => if ch = '漢' then '字' else if ch = 'z' then 'y' else ch) ch : Char).utf8Size = ch.utf8Size := by
  show (if ch = '漢' then '字' else if ch = 'z' then 'y' else ch).utf8Size = ch.utf8Size
  by_cases h1 : ch = '漢'
  · subst h1; decide
  · by_cases h2 : ch = 'z'
    · subst h2; decide
    · simp [h1, h2]

/-- Characters of another length move the positions behind them. -/
example :
    CharacterConverter.modifyWithPositions ⟨[('a', 'b')]⟩ .insertion (c! "za") =
      .ok ⟨.characterConverter ⟨[('a', 'b')]⟩, c! "zb", [⟨['a'], ['b'], 1, 1, 1, 1⟩]⟩ ∧
    CharacterConverter.modifyWithPositions ⟨[('a', 'b')]⟩ .insertion (c! "漢a") =
      .ok ⟨.characterConverter ⟨[('a', 'b')]⟩, c! "漢b", [⟨['a'], ['b'], 1, 1, 3, 1⟩]⟩ := by decide +kernel

/-- C66: whether the hash order can show in the results of a converter is seen on short texts. -/
theorem C66_short_texts {c : Chanoma} (hc : ApiBuilt c) (debug : Bool) :
    (∀ (σs τs : Nat → Oracle) text, c.normalize σs debug text = c.normalize τs debug text) ↔
    ∀ (σs τs : Nat → Oracle) (text : Str), text.length ≤ 2 * (c.memory * c.memory) →
      c.normalize σs debug text = c.normalize τs debug text :=
  ⟨fun h σs τs t _ => h σs τs t, fun h σs τs => (C79_same_on_short hc hc σs τs debug debug).2 (h σs τs)⟩

end Chanoma
