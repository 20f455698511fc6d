import Verif.Spec.Weights
import Verif.Props.Shorten
import Verif.Props.Done
/-! # C114: pipelines that make texts lighter come to rest -/

namespace Chanoma

theorem weight_nil (w : Char → Nat) : weight w [] = 0 := rfl

theorem weight_cons (w : Char → Nat) (c : Char) (t : Str) : weight w (c :: t) = w c + weight w t := by
  simp [weight]

theorem weight_append (w : Char → Nat) (s t : Str) : weight w (s ++ t) = weight w s + weight w t := by
  simp [weight]

/-- The text gets no heavier, and stays as it is if it gets no lighter. -/
def Lighter (w : Char → Nat) (f : Str → Str) : Prop :=
  ∀ t, weight w (f t) ≤ weight w t ∧ (weight w (f t) = weight w t → f t = t)

theorem sublist_weight {w : Char → Nat} (hw : ∀ c, 0 < w c) {s t : Str} (h : s.Sublist t) :
    weight w s ≤ weight w t ∧ (weight w s = weight w t → s = t) := by
  induction h with
  | slnil => exact ⟨Nat.le_refl _, fun _ => rfl⟩
  | cons a _ ih =>
    have := hw a
    rw [weight_cons]
    exact ⟨by omega, fun e => by omega⟩
  | cons_cons a _ ih =>
    rw [weight_cons, weight_cons]
    exact ⟨by omega, fun e => by rw [ih.2 (by omega)]⟩

theorem sublist_lighter {w : Char → Nat} (hw : ∀ c, 0 < w c) {f : Str → Str} (h : ∀ t, (f t).Sublist t) : Lighter w f :=
  fun t => sublist_weight hw (h t)

theorem map_lighter {w : Char → Nat} {g : Char → Char} (h : ∀ c, g c = c ∨ w (g c) < w c) : Lighter w (List.map g) := by
  intro t
  induction t with
  | nil => exact ⟨Nat.le_refl _, fun _ => rfl⟩
  | cons a t ih =>
    rw [List.map_cons, weight_cons, weight_cons]
    rcases h a with e | e
    · rw [e]; exact ⟨by omega, fun e => by rw [ih.2 (by omega)]⟩
    · exact ⟨by omega, fun e => by omega⟩

theorem compose_lighter {w : Char → Nat} (h : ∀ a m b, voiced a m = some b → w b < w a + w m) : Lighter w composeMarks := by
  intro t
  induction t using compose_induction with
  | h0 => exact ⟨Nat.le_refl _, fun _ => rfl⟩
  | h1 a => exact ⟨Nat.le_refl _, fun _ => rfl⟩
  | h2 a m t b hv ih =>
    rw [compose_hit hv]
    have := h a m b hv
    simp only [weight_cons]
    exact ⟨by omega, fun e => by omega⟩
  | h3 a m t hv ih =>
    rw [compose_keep hv, weight_cons, weight_cons]
    exact ⟨by omega, fun e => by rw [ih.2 (by omega)]⟩

theorem lighter_comp {w : Char → Nat} {f g : Str → Str} (hf : Lighter w f) (hg : Lighter w g) : Lighter w fun t => g (f t) := by
  intro t
  have h1 := hf t
  have h2 := hg (f t)
  refine ⟨Nat.le_trans h2.1 h1.1, fun e => ?_⟩
  replace e : weight w (g (f t)) = weight w t := e
  show g (f t) = t
  rw [h2.2 (by omega), h1.2 (by omega)]

theorem unread_weight {w : Char → Nat} {k v : Str} (h : weight w v < weight w k) (I : List (Option Char)) :
    weight w (unread v I) ≤ weight w (unread k I) ∧
    (weight w (unread v I) = weight w (unread k I) → unread v I = unread k I) := by
  induction I with
  | nil => exact ⟨Nat.le_refl _, fun _ => rfl⟩
  | cons x I ih =>
    cases x with
    | none =>
      simp only [unread, weight_append]
      exact ⟨by omega, fun e => by omega⟩
    | some c =>
      simp only [unread, weight_cons]
      exact ⟨by omega, fun e => by rw [ih.2 (by omega)]⟩

theorem light_key {w : Char → Nat} {k v : Str} (h : weight w v < weight w k) : k ≠ [] := by
  intro e
  rw [e, weight_nil] at h
  omega

theorem replace_lighter {w : Char → Nat} {k v : Str} (h : weight w v < weight w k) : Lighter w (strReplace k v) := by
  intro t
  obtain ⟨I, hI, rfl⟩ := parsed_exists (light_key h) t
  rw [parsed_replace (light_key h) v hI]
  exact unread_weight h I

theorem rules_lighter {w : Char → Nat} {l : List (Str × Str)} (h : ∀ r ∈ l, weight w r.2 < weight w r.1) (t : Str) :
    weight w (l.foldl (fun acc r => strReplace r.1 r.2 acc) t) ≤ weight w t ∧
    (weight w (l.foldl (fun acc r => strReplace r.1 r.2 acc) t) = weight w t → ∀ r ∈ l, strReplace r.1 r.2 t = t) := by
  induction l generalizing t with
  | nil => simp
  | cons r l ih =>
    have h1 := replace_lighter (h r (by simp)) t
    have ih := ih (fun r hr => h r (by simp [hr])) (strReplace r.1 r.2 t)
    rw [List.foldl_cons]
    refine ⟨by omega, fun e => ?_⟩
    have he := h1.2 (by omega)
    rw [he] at ih e
    intro r' hr'
    rcases List.mem_cons.1 hr' with rfl | hr'
    · exact he
    · exact ih.2 e r' hr'

theorem rules_same {l : List (Str × Str)} {t : Str} (hn : ∀ r ∈ l, strReplace r.1 r.2 t = t) :
    l.foldl (fun acc r => strReplace r.1 r.2 acc) t = t := by
  induction l with
  | nil => rfl
  | cons r l ih => rw [List.foldl_cons, hn r (by simp)]; exact ih fun r hr => hn r (by simp [hr])

/-- What is known of a pass that may depend on the hash orders. -/
def Lightening {α : Type u} (w : Char → Nat) (F : α → Str → Str) : Prop :=
  ∀ s t, weight w (F s t) ≤ weight w t ∧ (weight w (F s t) = weight w t → ∀ s', F s' t = t)

theorem kind_lightening {w : Char → Nat} (hw : ∀ c, 0 < w c) {m : ModifierKind} (hm : m.WF) (hl : m.Lightens w) :
    ∃ F : Oracle → Str → Str, (∀ σ t, m.modify σ t = .ok (F σ t)) ∧ Lightening w F := by
  have one : ∀ {f : Str → Str}, (∀ σ t, m.modify σ t = .ok (f t)) → Lighter w f →
      ∃ F : Oracle → Str → Str, (∀ σ t, m.modify σ t = .ok (F σ t)) ∧ Lightening w F :=
    fun {f} h1 h2 => ⟨fun _ => f, h1, fun _ t => ⟨(h2 t).1, fun e _ => (h2 t).2 e⟩⟩
  cases m with
  | characterConverter x =>
    refine one (f := substitute x.itemsMap.get?) (fun σ t => modify_eq x σ t) (map_lighter fun c => ?_)
    cases e : x.itemsMap.get? c with
    | none => exact .inl rfl
    | some d => exact hl c d e
  | characterEliminator x =>
    exact one (f := x.modify) (fun _ _ => rfl) (sublist_lighter hw fun t => by rw [eliminator_eq]; exact List.filter_sublist)
  | consecutiveCharacterReducer x =>
    exact one (f := x.modify) (fun _ _ => rfl) (sublist_lighter hw fun t => by rw [reducer_eq]; exact squeeze_sublist _ _)
  | dottedSpaceEliminator =>
    exact one (f := dottedModify) (fun _ _ => rfl) (sublist_lighter hw fun t => by rw [dotted_eq]; exact spaceRule_sublist _)
  | trim => exact one (f := trimModify) (fun _ _ => rfl) (sublist_lighter hw fun t => trimMatches_sublist _ _)
  | ligatureTranslator x =>
    refine ⟨fun σ t => x.modify σ t, fun _ _ => rfl, fun σ t => ?_⟩
    have hi : ∀ σ r, r ∈ Oracle.iter σ x.map ↔ r ∈ x.map := fun σ r => (σ.iter_perm x.map).mem_iff
    have h1 := rules_lighter (w := w) (l := Oracle.iter σ x.map) (fun r hr => hl r ((hi σ r).1 hr)) t
    exact ⟨h1.1, fun e τ => rules_same fun r hr => h1.2 e r ((hi σ r).2 ((hi τ r).1 hr))⟩
  | neologdn x =>
    obtain ⟨σ, hσ⟩ := hm
    obtain ⟨x', h1, -, h2, -⟩ := neologdn_new σ
    rw [hσ] at h1; cases h1
    refine one (f := neologdnSpec) h2 ?_
    have h3 : Lighter w fun t => (spaceRule (squeeze 'ー' t)).filter (· ∉ tildeChars) := sublist_lighter hw fun t =>
      List.filter_sublist.trans ((spaceRule_sublist _).trans (squeeze_sublist _ _))
    have h4 := lighter_comp (f := List.map neologdnFold) (map_lighter hl.1) h3
    exact lighter_comp (f := fun t => (spaceRule (squeeze 'ー' (t.map neologdnFold))).filter (· ∉ tildeChars)) h4
      (compose_lighter hl.2)

theorem run_lightening {w : Char → Nat} (hw : ∀ c, 0 < w c) {ms : List ModifierKind} (hm : ∀ m ∈ ms, m.WF)
    (hl : ∀ m ∈ ms, m.Lightens w) (n : Nat) :
    ∃ F : (Nat → Oracle) → Str → Str, (∀ (σs : Nat → Oracle) t,
      (ms.zipIdx n).foldlM (fun acc m => m.1.modify (σs m.2) acc) t = .ok (F σs t)) ∧ Lightening w F := by
  induction ms generalizing n with
  | nil => exact ⟨fun _ => id, fun σs t => by simp, fun _ t => ⟨Nat.le_refl _, fun _ _ => rfl⟩⟩
  | cons m ms ih =>
    obtain ⟨F, hF, h1⟩ := kind_lightening hw (hm m (by simp)) (hl m (by simp))
    obtain ⟨F', hF', h2⟩ := ih (fun m h => hm m (by simp [h])) (fun m h => hl m (by simp [h])) (n + 1)
    refine ⟨fun σs t => F' σs (F (σs n) t), fun σs t => ?_, fun σs t => ?_⟩
    · rw [List.zipIdx_cons, List.foldlM_cons, hF, Outcome.ok_bind, hF']
    · have l1 := (h1 (σs n) t).1
      have l2 := (h2 σs (F (σs n) t)).1
      refine ⟨Nat.le_trans l2 l1, fun e τs => ?_⟩
      replace e : weight w (F' σs (F (σs n) t)) = weight w t := e
      have e1 := (h1 (σs n) t).2 (by omega)
      have e2 := (h2 σs (F (σs n) t)).2 (by omega)
      rw [e1] at e2
      show F' τs (F (τs n) t) = t
      rw [e1, e2]

theorem light_rest {α : Type u} {w : Char → Nat} {F : α → Str → Str} (h : Lightening w F) (L : Nat) (s : Nat → α) (t : Str)
    (hL : weight w t ≤ L) : ∃ out, (∀ m, L ≤ m → manyPasses F s t m = out) ∧ ∀ a, F a out = out := by
  have rest : ∀ (s : Nat → α) (t : Str), (∀ a, F a t = t) → ∀ m, manyPasses F s t m = t := by
    intro s t ht m
    induction m with
    | zero => rfl
    | succ m ih => rw [manyPasses, ih, ht]
  induction L generalizing s t with
  | zero =>
    have ht := (h (s 0) t).2 (by have := (h (s 0) t).1; omega)
    exact ⟨t, fun m _ => rest s t ht m, ht⟩
  | succ L ih =>
    by_cases e : weight w (F (s 0) t) = weight w t
    · have ht := (h (s 0) t).2 e
      exact ⟨t, fun m _ => rest s t ht m, ht⟩
    · have := (h (s 0) t).1
      obtain ⟨out, h1, h2⟩ := ih (fun n => s (1 + n)) (F (s 0) t) (by omega)
      refine ⟨out, fun m hm => ?_, h2⟩
      rw [show m = 1 + (m - 1) by omega, passes_add]
      exact h1 _ (by omega)

/-! ### The property -/

/-- C114: if the characters can be given weights such that whatever is written is lighter than what it is written for,
every text comes to rest, whatever the hash orders, after no more passes than it weighs. -/
theorem C114_comes_to_rest {c : Chanoma} (hc : ApiBuilt c) (w : Char → Nat) (hw : ∀ ch, 0 < w ch)
    (hl : ∀ m ∈ c.modifiers, m.Lightens w) (seeds : Nat → Nat → Oracle) (text : Str) :
    ∃ out, (∀ m, weight w text ≤ m → c.again seeds text m = .ok out) ∧ ∀ σs, c.normalize σs false out = .ok out := by
  obtain ⟨F, h1, h2⟩ := run_lightening hw (apiBuilt_wf hc) hl 0
  obtain ⟨out, h3, h4⟩ := light_rest h2 _ seeds text (Nat.le_refl _)
  refine ⟨out, fun m hm => ?_, fun σs => ?_⟩
  · rw [again_passes (F := F) (c := c) (fun σs t => h1 σs t), h3 m hm]
  · exact (h1 σs out).trans (by rw [h4])

/-- C114: a text that a pass leaves as it is under one choice of hash orders is left so under every other. -/
theorem C114_any_order {c : Chanoma} (hc : ApiBuilt c) (w : Char → Nat) (hw : ∀ ch, 0 < w ch)
    (hl : ∀ m ∈ c.modifiers, m.Lightens w) (σs τs : Nat → Oracle) (text : Str) (h : c.normalize σs false text = .ok text) :
    c.normalize τs false text = .ok text := by
  obtain ⟨F, h1, h2⟩ := run_lightening hw (apiBuilt_wf hc) hl 0
  have h3 : F σs text = text := by
    have := (h1 σs text).symm.trans h
    injection this
  exact (h1 τs text).trans (by rw [(h2 σs text).2 (by rw [h3]) τs])

/-- C114: for a converter there are such weights exactly if it takes no character round in a circle. -/
theorem C114_converter (x : CharacterConverter) :
    (∃ w : Char → Nat, (∀ ch, 0 < w ch) ∧ (ModifierKind.characterConverter x).Lightens w) ↔
      NoCycle (ModifierKind.characterConverter x).onChar := by
  generalize hg : (ModifierKind.characterConverter x).onChar = g
  have hL : ∀ w, (ModifierKind.characterConverter x).Lightens w ↔ ∀ c, g c = c ∨ w (g c) < w c := by
    intro w
    rw [← hg]
    constructor
    · intro h c
      show (x.itemsMap.get? c).getD c = c ∨ w ((x.itemsMap.get? c).getD c) < w c
      cases e : x.itemsMap.get? c with
      | none => exact .inl rfl
      | some d => exact h c d e
    · intro h c d e
      have := h c
      replace this : (x.itemsMap.get? c).getD c = c ∨ w ((x.itemsMap.get? c).getD c) < w c := this
      rw [e] at this
      exact this
  constructor
  · rintro ⟨w, -, h⟩ c n hn e
    rw [hL] at h
    have le : ∀ k d, w (Nat.repeat g k d) ≤ w d := by
      intro k d
      induction k with
      | zero => exact Nat.le_refl _
      | succ k ih =>
        rw [Nat.repeat]
        rcases h (Nat.repeat g k d) with e | e
        · rw [e]; exact ih
        · omega
    rcases h c with h1 | h1
    · exact h1
    · have h2 := le (n - 1) (g c)
      have h3 : Nat.repeat g (n - 1) (g c) = Nat.repeat g n c := by
        rw [show n = n - 1 + 1 by omega, repeat_add]; rfl
      rw [h3, e] at h2
      omega
  · intro hn
    obtain ⟨K, hK⟩ := noCycle_bound hn
    refine ⟨fun c => 1 + (List.range K).countP fun i => g (Nat.repeat g i c) ≠ Nat.repeat g i c, fun c => Nat.lt_add_right _ Nat.one_pos, ?_⟩
    rw [hL]
    intro c
    by_cases h : g c = c
    · exact .inl h
    · refine .inr ?_
      have shift : ∀ i, Nat.repeat g i (g c) = Nat.repeat g (i + 1) c := by
        intro i; rw [repeat_add]; rfl
      have e : ∀ k, (List.range k).countP (fun i => g (Nat.repeat g i (g c)) ≠ Nat.repeat g i (g c)) + 1 =
          (List.range (k + 1)).countP (fun i => g (Nat.repeat g i c) ≠ Nat.repeat g i c) := by
        intro k
        rw [List.range_succ_eq_map, List.countP_cons, List.countP_map]
        have : Nat.repeat g 0 c = c := rfl
        simp only [this, h, ne_eq, not_false_eq_true, decide_true, if_true, Nat.add_right_cancel_iff]
        congr 1
        funext i
        simp [shift]
      have e1 := e K
      rw [List.range_succ, List.countP_append] at e1
      have e2 : [K].countP (fun i => g (Nat.repeat g i c) ≠ Nat.repeat g i c) = 0 := by
        simp [hK c]
      show 1 + _ < 1 + _
      omega

/-- C114: for neologdn there are: two for the characters that it folds, one for the others. -/
theorem C114_neologdn (x : Neologdn) :
    (ModifierKind.neologdn x).Lightens fun c => if neologdnFold c = c then 1 else 2 := by
  refine ⟨fun c => ?_, fun a m b h => ?_⟩
  · by_cases h : neologdnFold c = c
    · exact .inl h
    · refine .inr ?_
      show (if _ then 1 else 2) < if _ then 1 else 2
      rw [if_pos (neologdnFold_idem c), if_neg h]
      omega
  · have h1 : ∀ r ∈ neologdnLigatures, ∀ b ∈ r.2.head?, neologdnFold b = b := by decide +kernel
    have hb : neologdnFold b = b := h1 _ (voiced_cases h) b rfl
    show (if _ then 1 else 2) < (if _ then 1 else 2) + if _ then 1 else 2
    rw [if_pos hb]
    split <;> split <;> omega

/- A rule that keeps the length, one that shortens, and a converter; `髙` weighs two. -/
example : ∃ c, ApiBuilt c ∧ (∃ x, .ligatureTranslator x ∈ c.modifiers ∧ x.map.length = 2) ∧
    ∃ w : Char → Nat, (∀ ch, 0 < w ch) ∧ ∀ m ∈ c.modifiers, m.Lightens w := by
  have h : ApiBuilt ⟨[.ligatureTranslator ⟨[(c! "髙", c! "高"), (c! "ab", c! "c")]⟩, .characterConverter ⟨[]⟩]⟩ :=
    .fromConfigFile (σ := .insertion) (path := p! "/c.yaml")
      (w := .ofFiles [(p! "/c.yaml", .text [])] (fun _ => some (.mapping [(.string (c! "modifiers"),
        .mapping [(.string (c! "ligature_translator"),
          .mapping [(.string (c! "髙"), .string (c! "高")), (.string (c! "ab"), .string (c! "c"))])])]))) rfl
  refine ⟨_, h, ⟨_, List.mem_cons_self, rfl⟩, fun c => if c = '髙' then 2 else 1, fun ch => ?_, fun m hm => ?_⟩
  · show 0 < if _ then 2 else 1
    split <;> omega
  · simp only [List.mem_cons, List.not_mem_nil, or_false] at hm
    rcases hm with rfl | rfl
    · show ∀ r ∈ [(c! "髙", c! "高"), (c! "ab", c! "c")], weight _ r.2 < weight _ r.1
      decide +kernel
    · intro c d e
      cases e

/- A converter that takes one character to another, and that one to a third. -/
example : NoCycle (ModifierKind.characterConverter ⟨[('a', 'b'), ('b', 'c')]⟩).onChar :=
  (C114_converter _).1 ⟨fun c => if c = 'a' then 3 else if c = 'b' then 2 else 1,
    fun c => by show 0 < if _ then 3 else if _ then 2 else 1; (repeat' split) <;> omega,
    fun c d e => by
      by_cases ha : c = 'a'
      · subst ha; cases e; decide
      · by_cases hb : c = 'b'
        · subst hb; cases e; decide
        · replace e : (if 'a' = c then some 'b' else if 'b' = c then some 'c' else none) = some d := e
          rw [if_neg (Ne.symm ha), if_neg (Ne.symm hb)] at e
          cases e⟩

end Chanoma
