import Verif.Spec.Restore
import Verif.Props.Undo
import Verif.Props.Positions
import Verif.Props.Notation
import Verif.Props.Ligature
/-! # C72: which modifiers can be undone from what they report -/

namespace Chanoma

theorem spread_skip {c : Char} {s : Str} (h : c ∉ s) (ps : List Position) (t : Str) :
    spreadRuns c ps (s ++ t) = s ++ spreadRuns c ps t := by
  induction s with
  | nil => rfl
  | cons a s ih =>
    simp only [List.mem_cons, not_or] at h
    cases ps with
    | nil => simp [spreadRuns]
    | cons p ps => simp [spreadRuns, Ne.symm h.1, ih h.2]

theorem squeeze_runs {c : Char} {segs : List (Nat × Str)} (hok : RunsOk c segs) :
    squeeze c (runsText c segs) = segs.flatMap fun s => c :: s.2 := by
  induction segs with
  | nil => rfl
  | cons s rest ih =>
    have hs : 0 < s.1 ∧ c ∉ s.2 := by
      cases rest with
      | nil => exact hok
      | cons a rest => exact ⟨hok.1, hok.2.1⟩
    have e : squeeze c (List.replicate s.1 c) = [c] := by
      obtain ⟨k, hk⟩ : ∃ k, s.1 = k + 1 := ⟨s.1 - 1, by omega⟩
      rw [hk, squeeze_replicate]
    have h1 : squeeze c (List.replicate s.1 c ++ s.2) = c :: s.2 := by
      rw [squeeze_append _ _ _ (fun h => hs.2 (List.mem_of_mem_head? h.2)), e, squeeze_not_mem hs.2]
      rfl
    have hr : runsText c (s :: rest) = (List.replicate s.1 c ++ s.2) ++ runsText c rest := by simp [runsText]
    cases rest with
    | nil => simpa [runsText] using h1
    | cons a rest =>
      have hne := hok.2.2.1
      rw [hr, squeeze_append, h1, ih hok.2.2.2]
      · simp
      · rintro ⟨h, -⟩
        rw [List.getLast?_append, List.getLast?_eq_some_getLast hne, Option.some_or] at h
        exact hs.2 (List.mem_of_getLast? (by rw [List.getLast?_eq_some_getLast hne]; exact h))

theorem squeeze_runs' {c : Char} {s0 : Str} {segs : List (Nat × Str)} (h0 : c ∉ s0) (hok : RunsOk c segs) :
    squeeze c (s0 ++ runsText c segs) = s0 ++ segs.flatMap fun s => c :: s.2 := by
  rw [squeeze_append _ _ _ (fun h => h0 (List.mem_of_getLast? h.1)), squeeze_not_mem h0, squeeze_runs hok]

theorem spread_runs {c : Char} (total : Nat) (pre : Str) {segs : List (Nat × Str)} (hok : RunsOk c segs) :
    spreadRuns c (reducerPositions c total pre segs) (segs.flatMap fun s => c :: s.2) = runsText c segs := by
  induction segs generalizing pre with
  | nil => rfl
  | cons s rest ih =>
    have hs : c ∉ s.2 ∧ RunsOk c rest := by
      cases rest with
      | nil => exact ⟨hok.2, trivial⟩
      | cons a rest => exact ⟨hok.2.1, hok.2.2.2⟩
    simp only [reducerPositions, List.flatMap_cons, List.cons_append, spreadRuns, if_true]
    rw [spread_skip hs.1, ih _ hs.2]
    simp [runsText]

theorem reducer_restore (x : ConsecutiveCharacterReducer) (input : Str) :
    ∃ ps, x.modifyWithPositions input = .ok ⟨.consecutiveCharacterReducer x, squeeze x.c input, ps⟩ ∧
      spreadRuns x.c ps (squeeze x.c input) = input := by
  obtain ⟨s0, segs, rfl, h0, hok⟩ := exists_runs x.c input
  refine ⟨_, reducer_positions x s0 segs h0 hok, ?_⟩
  rw [squeeze_runs' h0 hok, spread_skip h0, spread_runs _ _ hok]

theorem trim_restore (input : Str) :
    ∃ ps, trimModifyWithPositions input = .ok ⟨.trim, trimModify input, ps⟩ ∧
      ps.foldr (fun p t => if p.index = 0 then p.from ++ t else t ++ p.from) (trimModify input) = input := by
  obtain ⟨a, b, h1, h2⟩ := trimPos_eq input
  refine ⟨_, h2, ?_⟩
  have hl : strLen input = a + strLen (trimModify input) + b := by
    conv => lhs; rw [h1]
    rw [strLen_append, strLen_append, strLen_space, strLen_space]
  generalize trimModify input = o at *
  by_cases ha : a = 0
  · by_cases hb : b = 0
    · simp [ha, hb] at h1 ⊢; exact h1.symm
    · simp only [ha, if_true, hb, if_false, List.nil_append, List.foldr_cons, List.foldr_nil]
      split
      · rename_i h
        have : o = [] := by
          have := length_le_strLen o
          exact List.eq_nil_of_length_eq_zero (by omega)
        subst this
        rw [h1, ha]; simp
      · rw [h1, ha]; simp
  · by_cases hb : b = 0
    · simp [ha, hb] at h1 ⊢; exact h1.symm
    · have : ¬ strLen input - b = 0 := by omega
      simp only [ha, hb, if_false, List.cons_append, List.nil_append, List.foldr_cons, List.foldr_nil, this, if_true]
      rw [h1]; simp

theorem kind_restore {m : ModifierKind} (h : m.Reports) (σ : Oracle) (input : Str) :
    ∃ o ps, m.modify σ input = .ok o ∧ m.modifyWithPositions σ input = .ok ⟨m, o, ps⟩ ∧
      ∀ text, restore ⟨m, text, ps⟩ o = input := by
  cases m with
  | characterConverter x =>
    obtain ⟨ps, h1, h2⟩ := converter_undo x σ input
    exact ⟨_, ps, modify_eq x σ input, h1, fun _ => h2⟩
  | consecutiveCharacterReducer x =>
    obtain ⟨ps, h1, h2⟩ := reducer_restore x input
    exact ⟨_, ps, congrArg _ (reducer_eq x input), h1, fun _ => h2⟩
  | trim =>
    obtain ⟨ps, h1, h2⟩ := trim_restore input
    exact ⟨_, ps, rfl, h1, fun _ => h2⟩
  | _ => exact h.elim

theorem run_restore (σs : Nat → Oracle) (ms : List ModifierKind) (h : ∀ m ∈ ms, m.Reports) :
    ∀ (i : Nat) (t : Str) (acc : List ModifiedRecord), ∃ rs out,
      (ms.zipIdx i).foldlM (fun acc m => m.1.modify (σs m.2) acc) t = .ok out ∧
      (ms.zipIdx i).foldlM
        (fun (st : List ModifiedRecord × Str) (m : ModifierKind × Nat) => do
          let result ← m.1.modifyWithPositions (σs m.2) st.2
          return (st.1 ++ [result], result.text)) (acc, t) = .ok (acc ++ rs, out) ∧
      rs.foldr restore out = t := by
  induction ms with
  | nil => intro i t acc; exact ⟨[], t, rfl, by simp, rfl⟩
  | cons m ms ih =>
    intro i t acc
    obtain ⟨o, ps, h0, h1, h2⟩ := kind_restore (h m (by simp)) (σs i) t
    obtain ⟨rs, out, h3, h4, h5⟩ := ih (fun m hm => h m (by simp [hm])) (i + 1) o (acc ++ [⟨m, o, ps⟩])
    refine ⟨⟨m, o, ps⟩ :: rs, out, ?_, ?_, ?_⟩
    · rw [List.zipIdx_cons, List.foldlM_cons]
      simp only [h0, Outcome.ok_bind]
      exact h3
    · rw [List.zipIdx_cons, List.foldlM_cons]
      simp only [h1, Outcome.ok_bind, Outcome.pure_eq]
      simp only [List.append_assoc, List.singleton_append] at h4
      exact h4
    · simp only [List.foldr_cons, h5, h2]

/-- C72: in a pipeline of converters, reducers and trims the input is obtained from the result by
undoing the records, last one first, although the reducer's indices are wrong. -/
theorem C72_restore (c : Chanoma) (h : ∀ m ∈ c.modifiers, m.Reports) (σs : Nat → Oracle) (text : Str) :
    ∃ rs out, c.normalizeWithPositions σs text = .ok ⟨rs⟩ ∧ c.normalize σs false text = .ok out ∧
      rs.foldr restore out = text := by
  obtain ⟨rs, out, h1, h2, h3⟩ := run_restore σs c.modifiers h 0 text []
  refine ⟨rs, out, ?_, ?_, h3⟩
  · unfold Chanoma.normalizeWithPositions
    rw [h2]; rfl
  · unfold Chanoma.normalize
    simpa using h1

/-- C72, exactly which modifiers (other than ligature translators) lose information: two different
texts with the same record exist for the dotted-space eliminator, for neologdn and for an
eliminator with at least one character, and for no other. -/
theorem C72_lossy_iff (σ : Oracle) (k v : YValue) (s : Step) (hd : Describes k v s) (hl : ∀ r, s ≠ .ligature r) :
    ∃ m, ModifierKind.fromYaml σ k v = .ok m ∧
      ((∃ τ τ' a b r, a ≠ b ∧ m.modifyWithPositions τ a = .ok r ∧ m.modifyWithPositions τ' b = .ok r) ↔
        s = .spaces ∨ s = .neologdn ∨ ∃ cs, s = .eliminate cs ∧ cs ≠ []) := by
  obtain ⟨m, h1, h2⟩ := build_ok σ s
  refine ⟨m, by rw [describes_build hd, h1], ?_⟩
  have keep : m.Reports → ¬ ∃ τ τ' a b r, a ≠ b ∧ m.modifyWithPositions τ a = .ok r ∧
      m.modifyWithPositions τ' b = .ok r := by
    rintro hr ⟨τ, τ', a, b, r, hne, ha, hb⟩
    obtain ⟨o, ps, -, h3, h4⟩ := kind_restore hr τ a
    obtain ⟨o', ps', -, h3', h4'⟩ := kind_restore hr τ' b
    rw [ha] at h3; cases h3
    rw [hb] at h3'
    simp only [Outcome.ok.injEq, ModifiedRecord.mk.injEq, true_and] at h3'
    obtain ⟨rfl, rfl⟩ := h3'
    exact hne ((h4 []).symm.trans (h4' []))
  cases s with
  | convert l => cases h1; simpa using keep trivial
  | reduce c => cases h1; simpa using keep trivial
  | trim => cases h1; simpa using keep trivial
  | ligature r => exact absurd rfl (hl r)
  | spaces =>
    cases h1
    simp only [true_or, iff_true]
    exact ⟨σ, σ, [], [' '], ⟨.dottedSpaceEliminator, [], []⟩, by decide, rfl, rfl⟩
  | neologdn =>
    simp only [true_or, or_true, iff_true]
    obtain ⟨x, h3, -, -, h4⟩ := neologdn_new σ
    simp only [Step.build, h3, Outcome.ok_bind, Outcome.pure_eq, Outcome.ok.injEq] at h1
    subst h1
    have e : neologdnSpec [' '] = neologdnSpec [] := by decide +kernel
    exact ⟨σ, σ, [], [' '], _, by decide, h4 σ [], by rw [← e]; exact h4 σ [' ']⟩
  | eliminate cs =>
    cases h1
    simp only [reduceCtorEq, false_or, Step.eliminate.injEq, exists_eq_left']
    have e : ∀ τ t, (ModifierKind.characterEliminator (.fromChars cs)).modifyWithPositions τ t =
        .ok ⟨.characterEliminator (.fromChars cs), t.filter (fun c => c ∉ cs), []⟩ := by
      intro τ t
      simp only [ModifierKind.modifyWithPositions, CharacterEliminator.modifyWithPositions, eliminator_eq,
        mem_fromChars]
    simp only [e, Outcome.ok.injEq]
    cases cs with
    | nil =>
      simp only [ne_eq, not_true_eq_false, iff_false]
      rintro ⟨-, -, a, b, r, hne, ha, hb⟩
      have := ha.trans hb.symm
      simp only [ModifiedRecord.mk.injEq, true_and, and_true] at this
      rw [List.filter_eq_self.2 (by simp), List.filter_eq_self.2 (by simp)] at this
      exact hne this
    | cons d cs =>
      simp only [ne_eq, reduceCtorEq, not_false_eq_true, iff_true]
      exact ⟨σ, σ, [], [d], _, by simp, rfl, by simp⟩

/-- C72: a ligature translator with one rule also loses information, if the key is not part of the
value: the key and the value have the same record. -/
theorem C72_lossy_ligature (σ τ : Oracle) (k v : Str) (hk : k ≠ []) (h : ¬ k <:+: v) :
    k ≠ v ∧
      (ModifierKind.ligatureTranslator ⟨[(k, v)]⟩).modifyWithPositions σ k =
        (ModifierKind.ligatureTranslator ⟨[(k, v)]⟩).modifyWithPositions τ v := by
  refine ⟨fun e => h (e ▸ List.infix_refl k), ?_⟩
  have h1 := (C14_single_ligature σ k v k hk).2 [] [] (by simp) (by simp)
  have h2 := (C14_single_ligature σ k v [] hk).1 (fun e => hk (List.infix_nil.1 e))
  have h3 := (C14_single_ligature τ k v v hk).1 h
  simp only [ModifierKind.modifyWithPositions, LigatureTranslator.modifyWithPositions, h1, h2, h3,
    List.nil_append, List.append_nil]

/-- The first occurrence of a character splits a list in one way. -/
theorem firstSplit_unique {x : Char} : ∀ {u u' r r' : Str}, x ∉ u → x ∉ u' → u ++ x :: r = u' ++ x :: r' →
    u = u' ∧ r = r'
  | [], [], _, _, _, _, h => ⟨rfl, by simpa using h⟩
  | [], c :: u', _, _, _, h', h => by
    simp only [List.nil_append, List.cons_append, List.cons.injEq] at h
    exact absurd (h.1 ▸ List.mem_cons_self) h'
  | c :: u, [], _, _, h', _, h => by
    simp only [List.nil_append, List.cons_append, List.cons.injEq] at h
    exact absurd (h.1 ▸ List.mem_cons_self) h'
  | c :: u, d :: u', r, r', h₁, h₂, h => by
    simp only [List.cons_append, List.cons.injEq] at h
    obtain ⟨rfl, h⟩ := h
    obtain ⟨rfl, e⟩ := firstSplit_unique (fun m => h₁ (List.mem_cons_of_mem _ m))
      (fun m => h₂ (List.mem_cons_of_mem _ m)) h
    exact ⟨rfl, e⟩

/-- What one rule with a single character as key does, on texts with and without the character. -/
theorem singleChar_run (σ : Oracle) (x : Char) (v : Str) :
    (∀ t, x ∉ t → (LigatureTranslator.mk [([x], v)]).modify σ t = t) ∧
    ∀ u r, x ∉ u → (LigatureTranslator.mk [([x], v)]).modify σ (u ++ x :: r) =
      u ++ v ++ (LigatureTranslator.mk [([x], v)]).modify σ r := by
  refine ⟨fun t h => (C14_single_ligature σ [x] v t (by simp)).1 (fun hi => h (hi.subset (by simp))),
    fun u r h => ?_⟩
  refine (C14_single_ligature σ [x] v (u ++ x :: r) (by simp)).2 u r (by simp) (fun u' v' e => ?_)
  obtain ⟨as, bs, e', has⟩ := List.eq_append_cons_of_mem (a := x) (xs := u' ++ [x]) (by simp)
  have h1 : u ++ x :: r = as ++ x :: (bs ++ v') := by rw [e, e']; simp
  obtain ⟨rfl, -⟩ := firstSplit_unique h has h1
  have := congrArg List.length e'
  simp at this
  omega

/-- C72, exactly for a ligature translator with one rule for a single character: it loses information
if and only if the value does not contain the character. -/
theorem C72_lossy_ligature_iff (x : Char) (v : Str) :
    (∃ τ τ' a b r, a ≠ b ∧
      (ModifierKind.ligatureTranslator ⟨[([x], v)]⟩).modifyWithPositions τ a = .ok r ∧
      (ModifierKind.ligatureTranslator ⟨[([x], v)]⟩).modifyWithPositions τ' b = .ok r) ↔ x ∉ v := by
  constructor
  · rintro ⟨τ, τ', a, b, r, hne, ha, hb⟩ hx
    obtain ⟨p, q, rfl, hp⟩ := List.eq_append_cons_of_mem hx
    have h := ha.trans hb.symm
    simp only [ModifierKind.modifyWithPositions, LigatureTranslator.modifyWithPositions, Outcome.ok.injEq,
      ModifiedRecord.mk.injEq, true_and, and_true] at h
    refine hne (?_ : a = b)
    clear hne ha hb
    induction hn : a.length using Nat.strongRecOn generalizing a b with
    | _ n ih =>
      obtain ⟨k1, s1⟩ := singleChar_run τ x (p ++ x :: q)
      obtain ⟨k2, s2⟩ := singleChar_run τ' x (p ++ x :: q)
      by_cases hxa : x ∈ a <;> by_cases hxb : x ∈ b
      · obtain ⟨u, a', rfl, hu⟩ := List.eq_append_cons_of_mem hxa
        obtain ⟨u', b', rfl, hu'⟩ := List.eq_append_cons_of_mem hxb
        rw [s1 _ _ hu, s2 _ _ hu'] at h
        obtain ⟨e1, e2⟩ := firstSplit_unique (u := u ++ p) (u' := u' ++ p) (x := x)
          (by simp [hu, hp]) (by simp [hu', hp]) (by simpa using h)
        rw [List.append_cancel_right e1,
          ih a'.length (by simp at hn; omega) a' b' (List.append_cancel_left e2) rfl]
      · obtain ⟨u, a', rfl, hu⟩ := List.eq_append_cons_of_mem hxa
        rw [s1 _ _ hu, k2 _ hxb] at h
        exact absurd (h ▸ by simp) hxb
      · obtain ⟨u', b', rfl, hu'⟩ := List.eq_append_cons_of_mem hxb
        rw [s2 _ _ hu', k1 _ hxa] at h
        exact absurd (h ▸ by simp) hxa
      · rwa [k1 _ hxa, k2 _ hxb] at h
  · intro hx
    have hi : ¬ [x] <:+: v := fun h => hx (h.subset (by simp))
    obtain ⟨h1, h2⟩ := C72_lossy_ligature .insertion .insertion [x] v (by simp) hi
    exact ⟨_, _, _, _, _, h1, rfl, h2.symm⟩

/-- C72: for longer keys it is not enough that the value contains the key: with `ab` → `baba`, `abba`
and `baab` have the same record. -/
theorem C72_lossy_ligature_longer (σ τ : Oracle) :
    c! "ab" <:+: c! "baba" ∧
      (ModifierKind.ligatureTranslator ⟨[(c! "ab", c! "baba")]⟩).modifyWithPositions σ (c! "abba") =
        (ModifierKind.ligatureTranslator ⟨[(c! "ab", c! "baba")]⟩).modifyWithPositions τ (c! "baab") := by
  refine ⟨⟨c! "b", c! "a", rfl⟩, ?_⟩
  have h : ∀ ρ : Oracle, ρ.iter [(c! "ab", c! "baba")] = [(c! "ab", c! "baba")] := fun ρ =>
    List.perm_singleton.1 (ρ.iter_perm _)
  simp only [ModifierKind.modifyWithPositions, LigatureTranslator.modifyWithPositions,
    LigatureTranslator.modify, h]
  decide +kernel

example : c! "ハ゜" ≠ [] ∧ ¬ c! "ハ゜" <:+: c! "パ" := by
  refine ⟨by decide, fun h => ?_⟩
  have := h.length_le
  simp at this

/-- Positions of all three modifiers: first a converter, then a reducer, then trim. -/
example : (do
    let c : Chanoma := ⟨[.characterConverter (.fromMap [('ａ', 'a')]), .consecutiveCharacterReducer ⟨'a'⟩, .trim]⟩
    let rs ← c.normalizeWithPositions (fun _ => .insertion) (c! "  xａaaya ")
    let out ← c.normalize (fun _ => .insertion) false (c! "  xａaaya ")
    return (out, rs.records.foldr restore out)) = .ok (c! "xaya", c! "  xａaaya ") := by decide +kernel

example : Describes (.string (c! "character_eliminator")) (.sequence [.string ['~']]) (.eliminate ['~']) :=
  .eliminate [('~', [])]

end Chanoma
