import Verif.Proofs.Modifiers
import Verif.Props.LigatureExact
import Verif.Props.Swap
/-! # C79: short texts tell whether two converters do the same -/

namespace Chanoma

theorem perm_memory {l l' : List (Str × Str)} (h : l.Perm l') :
    l.foldr (fun e n => max 1 e.1.length * n) 1 = l'.foldr (fun e n => max 1 e.1.length * n) 1 := by
  induction h with
  | nil => rfl
  | cons _ _ ih => rw [List.foldr_cons, List.foldr_cons, ih]
  | swap a b l => simp only [List.foldr_cons]; rw [Nat.mul_left_comm]
  | trans _ _ ih1 ih2 => rw [ih1, ih2]

theorem finite_ligature (x : LigatureTranslator) (σ : Oracle) :
    FiniteState (ModifierKind.ligatureTranslator x).memory (x.modify σ) := by
  have h := finite_rules (σ.iter x.map)
  rw [perm_memory (σ.iter_perm x.map)] at h
  exact h

theorem finite_modify {k : ModifierKind} (hk : k.WF) (σ : Oracle) :
    ∃ f, (∀ t, k.modify σ t = .ok (f t)) ∧ FiniteState k.memory f := by
  cases k with
  | characterConverter x =>
    refine ⟨_, fun t => by rw [ModifierKind.modify, modify_eq], ?_⟩
    have e : substitute x.itemsMap.get? = fun t => [] ++ t.flatMap fun c => [(x.itemsMap.get? c).getD c] := by
      funext t
      rw [substitute]
      induction t with
      | nil => rfl
      | cons c t ih => rw [List.map_cons, ih]; rfl
    rw [e]
    exact finite_flatMap _ _
  | characterEliminator x =>
    refine ⟨_, fun t => by rw [ModifierKind.modify, eliminator_eq], ?_⟩
    have e : (List.filter fun c : Char => c ∉ x.chars) = fun t => [] ++ t.flatMap fun c => if c ∈ x.chars then [] else [c] := by
      funext t
      induction t with
      | nil => rfl
      | cons c t ih => rw [List.flatMap_cons]; by_cases h : c ∈ x.chars <;> simp [h] at ih ⊢ <;> exact ih
    rw [e]
    exact finite_flatMap _ _
  | consecutiveCharacterReducer x =>
    exact ⟨_, fun t => by rw [ModifierKind.modify, reducer_eq], finite_squeeze x.c⟩
  | dottedSpaceEliminator => exact ⟨_, fun t => rfl, finite_dotted⟩
  | ligatureTranslator x => exact ⟨_, fun t => rfl, finite_ligature x σ⟩
  | trim => exact ⟨_, fun t => rfl, finite_trim⟩
  | neologdn n =>
    obtain ⟨τ, hτ⟩ := hk
    obtain ⟨x, h1, -, h2, -⟩ := neologdn_new τ
    rw [h1] at hτ; cases hτ
    exact ⟨_, fun t => by rw [ModifierKind.modify, h2], finite_neologdn⟩

theorem finite_normalize {c : Chanoma} (hc : ∀ m ∈ c.modifiers, m.WF) (σs : Nat → Oracle) :
    ∃ f, (∀ t, c.normalize σs false t = .ok (f t)) ∧ FiniteState c.memory f := by
  suffices H : ∀ (ms : List ModifierKind) (_ : ∀ m ∈ ms, m.WF) (i : Nat),
      ∃ f, (∀ t, (ms.zipIdx i).foldlM (fun acc m => m.1.modify (σs m.2) acc) t = .ok (f t)) ∧
        FiniteState (ms.foldr (fun m n => m.memory * n) 1) f by
    obtain ⟨f, h1, h2⟩ := H c.modifiers hc 0
    exact ⟨f, fun t => by simpa [Chanoma.normalize] using h1 t, h2⟩
  intro ms
  induction ms with
  | nil =>
    intro _ i
    exact ⟨fun t => t, fun t => rfl, by simpa using finite_flatMap (fun c => [c]) []⟩
  | cons m ms ih =>
    intro h i
    obtain ⟨f, f1, f2⟩ := finite_modify (h m (by simp)) (σs i)
    obtain ⟨g, g1, g2⟩ := ih (fun m hm => h m (by simp [hm])) (i + 1)
    refine ⟨fun t => g (f t), fun t => ?_, f2.comp g2⟩
    rw [List.zipIdx_cons, List.foldlM_cons]
    simp only [f1, Outcome.ok_bind]
    exact g1 _

theorem normalize_debug_nil {c : Chanoma} (h : c.modifiers = []) (σs : Nat → Oracle) (t : Str) :
    c.normalize σs true t = .panic := by
  simp [Chanoma.normalize, Chanoma.normalizeWithPositions, h, ModifiedRecords.text, unwrap]

/-- Either all texts are normalised, or none. -/
theorem normalize_total {c : Chanoma} (hc : ApiBuilt c) (σs : Nat → Oracle) (debug : Bool) :
    (∃ f, (∀ t, c.normalize σs debug t = .ok (f t)) ∧ FiniteState c.memory f) ∨
    ∀ t, c.normalize σs debug t = .panic := by
  obtain ⟨f, h1, h2⟩ := finite_normalize (apiBuilt_wf hc) σs
  cases debug with
  | false => exact .inl ⟨f, h1, h2⟩
  | true =>
    by_cases h : c.modifiers = []
    · exact .inr fun t => normalize_debug_nil h σs t
    · exact .inl ⟨f, fun t => by rw [normalize_wf (apiBuilt_wf hc) h, h1], h2⟩

/-- C79: two converters, however they were made, do the same to every text if they do the same to
every text up to a length that can be read off from their modifiers. -/
theorem C79_same_on_short {c d : Chanoma} (hc : ApiBuilt c) (hd : ApiBuilt d) (σs τs : Nat → Oracle)
    (debug debug' : Bool) :
    (∀ text, c.normalize σs debug text = d.normalize τs debug' text) ↔
    ∀ text : Str, text.length ≤ 2 * (c.memory * d.memory) →
      c.normalize σs debug text = d.normalize τs debug' text := by
  refine ⟨fun h t _ => h t, fun h t => ?_⟩
  have h0 := h [] (Nat.zero_le _)
  rcases normalize_total hc σs debug with ⟨f, f1, f2⟩ | f1 <;>
    rcases normalize_total hd τs debug' with ⟨g, g1, g2⟩ | g1
  · rw [f1, g1, f2.eq_of_short g2 (fun t ht => by simpa [f1, g1] using h t ht)]
  · rw [f1, g1] at h0; cases h0
  · rw [f1, g1] at h0; cases h0
  · rw [f1, g1]

/-- C79: likewise for normalising twice and normalising once. -/
theorem C79_settled_on_short {c : Chanoma} (hc : ApiBuilt c) (σs : Nat → Oracle) (debug : Bool) :
    (∀ text out, c.normalize σs debug text = .ok out → c.normalize σs debug out = .ok out) ↔
    ∀ text out : Str, text.length ≤ 2 * (c.memory * c.memory * c.memory) →
      c.normalize σs debug text = .ok out → c.normalize σs debug out = .ok out := by
  refine ⟨fun h t o _ => h t o, fun h t o ho => ?_⟩
  rcases normalize_total hc σs debug with ⟨f, f1, f2⟩ | f1
  · rw [f1, Outcome.ok.injEq] at ho
    rw [← ho, f1]
    congr 1
    refine (f2.comp f2).eq_of_short f2 (fun t ht => ?_) t
    simpa [f1] using h t (f t) ht (f1 t)
  · rw [f1] at ho; cases ho

/-- C79: likewise for one converter undoing another. -/
theorem C79_undone_on_short {c d : Chanoma} (hc : ApiBuilt c) (hd : ApiBuilt d) (σs τs : Nat → Oracle)
    (debug debug' : Bool) :
    (∀ text out, c.normalize σs debug text = .ok out → d.normalize τs debug' out = .ok text) ↔
    ∀ text out : Str, text.length ≤ 2 * (c.memory * d.memory) →
      c.normalize σs debug text = .ok out → d.normalize τs debug' out = .ok text := by
  refine ⟨fun h t o _ => h t o, fun h t o ho => ?_⟩
  rcases normalize_total hc σs debug with ⟨f, f1, f2⟩ | f1
  · rw [f1, Outcome.ok.injEq] at ho
    rw [← ho]
    rcases normalize_total hd τs debug' with ⟨g, g1, g2⟩ | g1
    · rw [g1]
      congr 1
      have hid : FiniteState 1 (fun t => t) := by simpa using finite_flatMap (fun c => [c]) []
      refine (f2.comp g2).eq_of_short hid (fun t ht => ?_) t
      simpa [g1] using h t (f t) (by simpa using ht) (f1 t)
    · have := h [] (f []) (Nat.zero_le _) (f1 [])
      rw [g1] at this; cases this
  · rw [f1] at ho; cases ho

/-- The converter loaded from a configuration file with one ligature rule. -/
theorem config_ligature (k v : Str) : ∃ c, ApiBuilt c ∧ c.memory = max 1 k.length ∧
    ∀ σs debug text, c.normalize σs debug text = .ok (strReplace k v text) := by
  refine ⟨⟨[.ligatureTranslator ⟨[(k, v)]⟩, .characterConverter ⟨[]⟩]⟩, ?_, ?_, ?_⟩
  · exact .fromConfigFile (σ := .insertion) (path := p! "/c.yaml")
      (w := .ofFiles [(p! "/c.yaml", .text [])] (fun _ => some (.mapping [(.string (c! "modifiers"),
        .mapping [(.string (c! "ligature_translator"), .mapping [(.string k, .string v)])])]))) rfl
  · simp [Chanoma.memory, ModifierKind.memory]
  · have h : ∀ σs text, Chanoma.normalize ⟨[.ligatureTranslator ⟨[(k, v)]⟩, .characterConverter ⟨[]⟩]⟩ σs false text =
        .ok (strReplace k v text) := by
      intro σs text
      have e := List.perm_singleton.1 ((σs 0).iter_perm [(k, v)])
      simp [Chanoma.normalize, ModifierKind.modify, LigatureTranslator.modify, e, modify_eq, substitute, HMap.get?]
    intro σs debug text
    rw [normalize_wf (by simp [ModifierKind.WF]) (by simp), h]

/-- C79: no length does for all converters: for every `n` there are two that do the same to all texts
of length up to `n` but not to all texts. -/
theorem C79_no_common_length (n : Nat) : ∃ c d, ApiBuilt c ∧ ApiBuilt d ∧
    (∀ σs τs debug debug' (text : Str), text.length ≤ n →
      c.normalize σs debug text = d.normalize τs debug' text) ∧
    ∀ σs τs debug debug', ∃ text, c.normalize σs debug text ≠ d.normalize τs debug' text := by
  have hk : List.replicate (n + 1) 'a' ≠ [] := by simp
  obtain ⟨c, c1, -, c3⟩ := config_ligature (List.replicate (n + 1) 'a') []
  obtain ⟨d, d1, -, d3⟩ := config_ligature (List.replicate (n + 1) 'a') (List.replicate (n + 1) 'a')
  refine ⟨c, d, c1, d1, fun σs τs b b' t ht => ?_, fun σs τs b b' => ⟨List.replicate (n + 1) 'a', ?_⟩⟩
  · rw [c3, d3, strReplace_self hk, strReplace_short hk _ _ (by simp; omega)]
  · have := strReplace_hit hk [] []
    rw [List.append_nil] at this
    rw [c3, d3, strReplace_self hk, this, strReplace_nil hk]
    simp

/-- The bounds for some converters. -/
example (σ : Oracle) : ∃ c d e, Chanoma.preset σ = .ok c ∧ Chanoma.neologdn σ = .ok d ∧ d.usePreset σ = .ok e ∧
    c.memory = 1 ∧ d.memory = 344 ∧ e.memory = 344 := by
  obtain ⟨x, h1, -⟩ := neologdn_new σ
  obtain ⟨k, h2, -⟩ := allCharactersSet_ok σ
  refine ⟨⟨[.characterConverter k]⟩, ⟨[.neologdn x]⟩, ⟨[.neologdn x, .characterConverter k]⟩, ?_, ?_, ?_, rfl, rfl, rfl⟩ <;>
    simp [Chanoma.preset, Chanoma.neologdn, Chanoma.usePreset, h1, h2]

/-! ### The order of ligature rules -/

theorem strReplace_sep (k v : Str) {c : Char} (hc : c ∉ k) (u w : Str) :
    strReplace k v (u ++ c :: w) = strReplace k v u ++ c :: strReplace k v w := by
  by_cases hk : k = []
  · subst hk
    simp [strReplace]
  · have hsep : ∀ u : Str, k <+: u ++ c :: w → k <+: u := by
      intro u h
      rw [show u ++ c :: w = (u ++ [c]) ++ w by simp] at h
      rcases prefix_append_cases h with h | h
      · obtain ⟨r, hr⟩ := h
        cases hr' : r.reverse with
        | nil =>
          rw [List.reverse_eq_nil_iff] at hr'
          rw [hr', List.append_nil] at hr
          exact absurd (by rw [hr]; simp) hc
        | cons a r' =>
          have : r = r'.reverse ++ [a] := by rw [← List.reverse_cons, ← hr', List.reverse_reverse]
          rw [this, ← List.append_assoc] at hr
          exact ⟨_, (List.append_inj' hr rfl).1⟩
      · exact absurd (h.subset (by simp)) hc
    generalize hn : u.length = n
    induction n using Nat.strongRecOn generalizing u with
    | _ n ih =>
      by_cases hp : k <+: u
      · obtain ⟨r, rfl⟩ := hp
        have hl := List.length_pos_iff.2 hk
        rw [List.append_assoc, strReplace_hit hk, strReplace_hit hk,
          ih r.length (by rw [← hn, List.length_append]; omega) r rfl, List.append_assoc]
      · cases u with
        | nil =>
          rw [List.nil_append, strReplace_nil hk, List.nil_append, strReplace_keep hk]
          exact fun h => hp (hsep [] h)
        | cons a u =>
          have hp' : ¬ k <+: a :: (u ++ c :: w) := fun h => hp (hsep (a :: u) h)
          rw [List.cons_append, strReplace_keep hk v hp', strReplace_keep hk v hp,
            ih u.length (by rw [← hn]; simp) u rfl, List.cons_append]

theorem rules_sep (l : List (Str × Str)) {c : Char} (hc : ∀ e ∈ l, c ∉ e.1) (u w : Str) :
    l.foldl (fun t e => strReplace e.1 e.2 t) (u ++ c :: w) =
      l.foldl (fun t e => strReplace e.1 e.2 t) u ++ c :: l.foldl (fun t e => strReplace e.1 e.2 t) w := by
  induction l generalizing u w with
  | nil => rfl
  | cons e l ih =>
    rw [List.foldl_cons, strReplace_sep _ _ (hc e (by simp)), ih fun e he => hc e (by simp [he])]
    rfl

/-- C15: whether the order of the rules matters shows on texts made of characters of the keys and
bounded in length by the lengths of the keys.  This is an exact criterion for every rule map. -/
theorem C15_short_texts (x : LigatureTranslator) :
    (∀ (σ τ : Oracle) (text : Str), x.modify σ text = x.modify τ text) ↔
    ∀ (σ τ : Oracle) (text : Str), (∀ c ∈ text, ∃ e ∈ x.map, c ∈ e.1) →
      text.length ≤ 2 * (x.map.foldr (fun e n => max 1 e.1.length * n) 1) ^ 2 →
      x.modify σ text = x.modify τ text := by
  refine ⟨fun h σ τ t _ _ => h σ τ t, fun h σ τ t => ?_⟩
  refine (finite_ligature x σ).eq_of_short (finite_ligature x τ) (fun t ht => ?_) t
  generalize hn : t.length = n
  induction n using Nat.strongRecOn generalizing t with
  | _ n ih =>
    by_cases hk : ∀ c ∈ t, ∃ e ∈ x.map, c ∈ e.1
    · exact h σ τ t hk (by rw [Nat.pow_two]; exact ht)
    · simp only [Classical.not_forall, not_exists, not_and] at hk
      obtain ⟨c, hc, hn'⟩ := hk
      obtain ⟨u, w, rfl⟩ := List.append_of_mem hc
      have hs : ∀ ρ : Oracle, x.modify ρ (u ++ c :: w) = x.modify ρ u ++ c :: x.modify ρ w := fun ρ =>
        rules_sep _ (fun e he => hn' e ((ρ.iter_perm x.map).mem_iff.1 he)) u w
      simp only [List.length_append, List.length_cons] at hn ht
      rw [hs, hs, ih u.length (by omega) u (by omega) rfl, ih w.length (by omega) w (by omega) rfl]

theorem perm_pair {α : Type} {l : List α} {a b : α} (h : l.Perm [a, b]) : l = [a, b] ∨ l = [b, a] := by
  match l, h with
  | [], h => exact absurd h.length_eq (by simp)
  | [_], h => exact absurd h.length_eq (by simp)
  | [x, y], h =>
    have hx : x ∈ [a, b] := h.subset (by simp)
    rcases List.mem_cons.1 hx with e | hx
    · rw [e] at h ⊢
      left
      rw [List.perm_singleton.1 (List.perm_cons a |>.1 h)]
    · have e := List.mem_singleton.1 hx
      rw [e] at h ⊢
      right
      rw [List.perm_singleton.1 (List.perm_cons b |>.1 (h.trans (.swap b a [])))]
  | _ :: _ :: _ :: _, h => exact absurd h.length_eq (by simp)

/-- Two rules with overlapping keys whose order does not matter, by checking nine short texts. -/
example (σ τ : Oracle) (text : Str) :
    LigatureTranslator.modify ⟨[(c! "a", c! "c"), (c! "aa", c! "cc")]⟩ σ text =
    LigatureTranslator.modify ⟨[(c! "a", c! "c"), (c! "aa", c! "cc")]⟩ τ text := by
  refine (C15_short_texts ⟨[(c! "a", c! "c"), (c! "aa", c! "cc")]⟩).2 (fun σ τ t h1 h2 => ?_) σ τ text
  have ht : t = List.replicate t.length 'a' := List.eq_replicate_iff.2 ⟨rfl, fun c hc => by simpa using h1 c hc⟩
  have key : ∀ ρ : Oracle, LigatureTranslator.modify ⟨[(c! "a", c! "c"), (c! "aa", c! "cc")]⟩ ρ t =
      List.replicate t.length 'c' := by
    intro ρ
    have hl : t.length < 9 := by
      have : t.length ≤ 8 := h2
      omega
    rw [ht, List.length_replicate]
    generalize t.length = n at hl
    have h3 : ∀ n < 9, strReplace (c! "aa") (c! "cc") (strReplace (c! "a") (c! "c") (List.replicate n 'a')) = List.replicate n 'c' ∧
        strReplace (c! "a") (c! "c") (strReplace (c! "aa") (c! "cc") (List.replicate n 'a')) = List.replicate n 'c' := by
      decide +kernel
    have hp := ρ.iter_perm [(c! "a", c! "c"), (c! "aa", c! "cc")]
    rw [LigatureTranslator.modify]
    rcases perm_pair hp with e | e
    · rw [e]; exact (h3 n hl).1
    · rw [e]; exact (h3 n hl).2
  rw [key, key]

end Chanoma
