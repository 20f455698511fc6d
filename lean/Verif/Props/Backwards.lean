import Verif.Props.Typing
/-! # C89: texts read backwards -/

namespace Chanoma

theorem squeeze_reverse (c : Char) (t : Str) : squeeze c t.reverse = (squeeze c t).reverse := by
  induction t with
  | nil => rfl
  | cons a t ih =>
    rw [List.reverse_cons, squeeze]
    by_cases h : a = c ∧ t.head? = some c
    · rw [if_pos h, squeeze_join (by rw [List.getLast?_reverse]; exact h.2) (by simp [h.1]), ih]
      simp [squeeze]
    · rw [if_neg h, squeeze_append, ih, List.reverse_cons]
      · simp [squeeze]
      · rw [List.getLast?_reverse]
        exact fun h' => h ⟨by simpa using h'.2, h'.1⟩

theorem joined_reverse (a b : Str) : JoinedBySpace a.reverse b.reverse ↔ JoinedBySpace b a := by
  simp only [JoinedBySpace, List.filter_reverse, List.getLast?_reverse, List.head?_reverse]
  exact ⟨fun ⟨h1, h2, h3⟩ => ⟨h2, h1, h3.symm⟩, fun ⟨h1, h2, h3⟩ => ⟨h2, h1, h3.symm⟩⟩

theorem dotted_reverse (t : Str) : dottedModify t.reverse = (dottedModify t).reverse := by
  rw [dotted_eq_dGo, dotted_eq_dGo]
  induction t with
  | nil => rfl
  | cons a t ih =>
    have h1 : (dGo false false [a]).reverse = dGo false false [a] := by
      have := dGo_len [a]
      generalize dGo false false [a] = o at this
      match o, this with
      | [], _ => rfl
      | [x], _ => rfl
    have h2 := joined_reverse t [a]
    rw [List.reverse_cons, spaces_append, ih, show a :: t = [a] ++ t from rfl, spaces_append [a] t,
      List.reverse_append, List.reverse_append, h1, List.append_assoc]
    rw [show ([a] : Str).reverse = [a] from rfl] at h2
    by_cases h : JoinedBySpace [a] t
    · rw [if_pos h, if_pos (h2.2 h)]; rfl
    · rw [if_neg h, if_neg (fun h' => h (h2.1 h'))]; rfl

theorem trim_reverse (t : Str) : trimModify t.reverse = (trimModify t).reverse := by
  obtain ⟨a, b, h1, h2, h3⟩ := trim_eq t
  obtain ⟨a', b', h1', h2', h3'⟩ := trim_eq t.reverse
  refine trim_unique (a := a') (b := b') (a' := b) (b' := a) ?_ h2' h3' ?_ ?_
  · rw [← h1']
    conv => lhs; rw [h1]
    simp
  · rw [List.head?_reverse]; exact h3
  · rw [List.getLast?_reverse]; exact h2

theorem OverlapsAgree.reverse {k v : Str} (h : OverlapsAgree k v) : OverlapsAgree k.reverse v.reverse := by
  intro s x y h1 h2 h3
  have := h s.reverse y.reverse x.reverse (by simpa using h1)
    (by rw [← List.reverse_reverse k, h3, List.reverse_append]) (by rw [← List.reverse_reverse k, h2, List.reverse_append])
  have := congrArg List.reverse this
  simpa using this.symm

theorem replace_cut {k : Str} (hk : k ≠ []) (v a b : Str)
    (h : ∀ u w, k = u ++ w → u ≠ [] → w ≠ [] → ¬ (u <:+ a ∧ w <+: b)) :
    strReplace k v (a ++ b) = strReplace k v a ++ strReplace k v b := by
  have := C73_ligature .insertion .insertion .insertion k v a b hk h
  simpa [LigatureTranslator.modify, Oracle.insertion] using this

theorem replace_end {k : Str} (hk : k ≠ []) {v : Str} (hu : OverlapsAgree k v) (a : Str) :
    strReplace k v (a ++ k) = strReplace k v a ++ v := by
  have hit : strReplace k v k = v := by
    have := strReplace_hit hk v []
    rwa [List.append_nil, strReplace_nil hk, List.append_nil] at this
  suffices ∀ n, ∀ a : Str, a.length ≤ n → strReplace k v (a ++ k) = strReplace k v a ++ v from
    this a.length a (Nat.le_refl _)
  intro n
  induction n with
  | zero =>
    intro a ha
    rw [List.length_eq_zero_iff.1 (Nat.le_zero.1 ha), List.nil_append, strReplace_nil hk, hit]; rfl
  | succ n ih =>
    intro a ha
    by_cases hp : k <+: a
    · obtain ⟨t, rfl⟩ := hp
      have := List.length_pos_iff.2 hk
      rw [List.append_assoc, strReplace_hit hk, strReplace_hit hk, ih t (by simp at ha; omega), List.append_assoc]
    · by_cases hq : k <+: a ++ k
      · rcases prefix_append_cases hq with h | ⟨s, hs⟩
        · exact absurd h hp
        · obtain ⟨x, hx⟩ := hq
          have hs0 : s ≠ [] := by
            rintro rfl
            exact hp ⟨[], by rw [← hs]; simp⟩
          have e : k = s ++ x := by
            rw [← hs, List.append_assoc, List.append_cancel_left_eq] at hx
            rw [hx, hs]
          have l1 : a.length < k.length := by
            have := congrArg List.length hs
            have := List.length_pos_iff.2 hs0
            simp at *; omega
          have l2 : x.length < k.length := by
            have := congrArg List.length e
            have := List.length_pos_iff.2 hs0
            simp at *; omega
          rw [← hx, strReplace_hit hk, strReplace_short hk v x l2, strReplace_short hk v a l1]
          exact hu s x a hs0 e hs.symm
      · cases a with
        | nil => exact absurd (List.prefix_refl k) hq
        | cons c a =>
          rw [List.cons_append, strReplace_keep hk v (o := a ++ k) hq, ih a (by simpa using ha), strReplace_keep hk v hp]; rfl

theorem replace_reverse {k v : Str} (hu : OverlapsAgree k v) (t : Str) :
    strReplace k.reverse v.reverse t.reverse = (strReplace k v t).reverse := by
  by_cases hk : k = []
  · subst hk
    simp only [strReplace, List.reverse_nil, List.reverse_append]
    induction t with
    | nil => simp
    | cons c t ih =>
      simp only [List.reverse_cons, List.flatMap_append, List.flatMap_cons, List.flatMap_nil, List.append_nil,
        List.reverse_append] at ih ⊢
      rw [← List.append_assoc, ih]
      simp
  have hk' : k.reverse ≠ [] := by simpa using hk
  suffices ∀ n, ∀ t : Str, t.length ≤ n → strReplace k.reverse v.reverse t.reverse = (strReplace k v t).reverse from
    this t.length t (Nat.le_refl _)
  intro n
  induction n with
  | zero =>
    intro t ht
    rw [List.length_eq_zero_iff.1 (Nat.le_zero.1 ht), strReplace_nil hk, List.reverse_nil, strReplace_nil hk']
  | succ n ih =>
    intro t ht
    by_cases hp : k <+: t
    · obtain ⟨t, rfl⟩ := hp
      have := List.length_pos_iff.2 hk
      rw [List.reverse_append, replace_end hk' hu.reverse, ih t (by simp at ht; omega), strReplace_hit hk,
        List.reverse_append]
    · cases t with
      | nil => rw [strReplace_nil hk, List.reverse_nil, strReplace_nil hk']
      | cons c t =>
        have one : strReplace k.reverse v.reverse [c] = [c] := by
          rw [strReplace_keep hk', strReplace_nil hk']
          intro h
          rcases List.prefix_cons_iff.1 h with h | ⟨s, h1, h2⟩
          · exact hk' h
          · rw [List.prefix_nil.1 h2] at h1
            have : k = [c] := by rw [← List.reverse_reverse k, h1]; rfl
            exact hp (by rw [this]; exact List.cons_prefix_cons.2 ⟨rfl, List.nil_prefix⟩)
        rw [List.reverse_cons, replace_cut hk', one, ih t (by simpa using ht), strReplace_keep hk v hp, List.reverse_cons]
        rintro u w e h1 h2 ⟨h3, h4⟩
        rcases List.prefix_cons_iff.1 h4 with h | ⟨s, h5, h6⟩
        · exact h2 h
        · rw [h5, List.prefix_nil.1 h6] at e
          have e' : k = c :: u.reverse := by rw [← List.reverse_reverse k, e]; simp
          refine hp ?_
          rw [e', List.cons_prefix_cons]
          refine ⟨rfl, ?_⟩
          rw [← List.reverse_suffix, List.reverse_reverse]; exact h3

theorem modify_reverse {m : ModifierKind} (hm : ¬ m.LooksBack) (σ : Oracle) (t o : Str)
    (h : m.modify σ t = .ok o) : m.modify σ t.reverse = .ok o.reverse := by
  cases m with
  | ligatureTranslator x => exact absurd trivial hm
  | neologdn x => exact absurd trivial hm
  | characterConverter x =>
    rw [ModifierKind.modify, modify_eq, Outcome.ok.injEq] at h ⊢
    rw [← h, substitute, substitute, List.map_reverse]
  | characterEliminator x =>
    rw [ModifierKind.modify, eliminator_eq, Outcome.ok.injEq] at h ⊢
    rw [← h, List.filter_reverse]
  | consecutiveCharacterReducer x =>
    rw [ModifierKind.modify, reducer_eq, Outcome.ok.injEq] at h ⊢
    rw [← h, squeeze_reverse]
  | dottedSpaceEliminator =>
    rw [ModifierKind.modify, Outcome.ok.injEq] at h ⊢
    rw [← h, dotted_reverse]
  | trim =>
    rw [ModifierKind.modify, Outcome.ok.injEq] at h ⊢
    rw [← h, trim_reverse]

theorem pipeline_reverse (σs : Nat → Oracle) : ∀ (ms : List ModifierKind), (∀ m ∈ ms, ¬ m.LooksBack) → (∀ m ∈ ms, m.WF) → ∀ (i : Nat) (text out : Str),
    (ms.zipIdx i).foldlM (fun acc m => m.1.modify (σs m.2) acc) text = .ok out →
    (ms.zipIdx i).foldlM (fun acc m => m.1.modify (σs m.2) acc) text.reverse = .ok out.reverse := by
  intro ms
  induction ms with
  | nil => intro _ _ i text out h; cases h; rfl
  | cons m ms ih =>
    intro hb hs i text out h
    rw [List.zipIdx_cons, List.foldlM_cons] at h ⊢
    obtain ⟨o, ps, h1, -⟩ := wf_agree m (hs m (by simp)) (σs i) text
    rw [h1, Outcome.ok_bind] at h
    rw [modify_reverse (hb m (by simp)) _ _ _ h1, Outcome.ok_bind]
    exact ih (fun m hm => hb m (by simp [hm])) (fun m hm => hs m (by simp [hm])) _ _ _ h

/-! ### C89 -/

/-- C89: a pipeline without ligature translators and neologdn treats a text read backwards like the text. -/
theorem C89_backwards {c : Chanoma} (hc : ApiBuilt c) (h : ∀ m ∈ c.modifiers, ¬ m.LooksBack)
    (σs : Nat → Oracle) (debug : Bool) (text out : Str) (ho : c.normalize σs debug text = .ok out) :
    c.normalize σs debug text.reverse = .ok out.reverse := by
  have hw := apiBuilt_wf hc
  have hq := pipeline_reverse σs c.modifiers h hw 0 text out (normalize_quiet hw ho)
  cases debug with
  | false => exact hq
  | true =>
    by_cases hne : c.modifiers = []
    · rw [normalize_debug_nil hne] at ho; cases ho
    · rw [normalize_wf hw hne]; exact hq

theorem one_rule (σ : Oracle) (k v t : Str) : LigatureTranslator.modify ⟨[(k, v)]⟩ σ t = strReplace k v t := by
  rw [LigatureTranslator.modify, List.perm_singleton.1 (σ.iter_perm [(k, v)])]; rfl

/-- C89: one rule, with key and value read backwards, does to all texts read backwards what the rule does to the
texts exactly if it does not matter which one of two overlapping occurrences of the key is replaced. -/
theorem C89_one_rule (σ : Oracle) (k v : Str) :
    (∀ text, LigatureTranslator.modify ⟨[backwards (k, v)]⟩ σ text.reverse =
      (LigatureTranslator.modify ⟨[(k, v)]⟩ σ text).reverse) ↔ OverlapsAgree k v := by
  simp only [backwards, one_rule]
  constructor
  · intro h s x y hs hx hy
    have hk : k ≠ [] := by rintro rfl; simp at hx; exact hs hx.1
    have hk' : k.reverse ≠ [] := by simpa using hk
    have l0 := List.length_pos_iff.2 hs
    have lx : x.length < k.length := by have := congrArg List.length hx; simp at this; omega
    have ly : y.length < k.length := by have := congrArg List.length hy; simp at this; omega
    have e : k ++ x = y ++ k := by
      conv => lhs; rw [hy]
      rw [List.append_assoc, ← hx]
    have h1 := h (k ++ x)
    rw [strReplace_hit hk, strReplace_short hk v x lx, e, List.reverse_append, strReplace_hit hk',
      strReplace_short hk' _ _ (by simpa using ly)] at h1
    have := congrArg List.reverse h1
    simpa using this.symm
  · exact fun h t => replace_reverse h t

/-- C89: a key that does not overlap itself is such a key, whatever the value. -/
theorem C89_no_overlap (k : Str) (h : ∀ s, s ≠ [] → s ≠ k → s <+: k → ¬ s <:+ k) (v : Str) : OverlapsAgree k v := by
  intro s x y hs hx hy
  by_cases e : s = k
  · subst e
    have h1 : x = [] := by simpa using hx
    have h2 : y = [] := by simpa using hy
    simp [h1, h2]
  · exact absurd ⟨y, hy.symm⟩ (h s hs e ⟨x, hx.symm⟩)

theorem rules_reverse (l : List (Str × Str)) (h : ∀ r ∈ l, OverlapsAgree r.1 r.2) (t : Str) :
    (l.map backwards).foldl (fun t e => strReplace e.1 e.2 t) t.reverse =
      (l.foldl (fun t e => strReplace e.1 e.2 t) t).reverse := by
  induction l generalizing t with
  | nil => rfl
  | cons e l ih =>
    rw [List.map_cons, List.foldl_cons, List.foldl_cons]
    simp only [backwards]
    rw [replace_reverse (h e (by simp))]
    exact ih (fun r hr => h r (by simp [hr])) _

/-- C89: the same for several rules: for every hash order of the rules there is one of the rules read backwards. -/
theorem C89_rules (x : LigatureTranslator) (h : ∀ r ∈ x.map, OverlapsAgree r.1 r.2) (σ : Oracle) :
    ∃ τ, ∀ text, LigatureTranslator.modify ⟨x.map.map backwards⟩ τ text.reverse = (x.modify σ text).reverse := by
  have hp := σ.iter_perm x.map
  obtain ⟨τ, hτ⟩ := Oracle.exists_iter (hp.map backwards)
  refine ⟨τ, fun t => ?_⟩
  rw [LigatureTranslator.modify, LigatureTranslator.modify, hτ]
  exact rules_reverse _ (fun r hr => h r (hp.mem_iff.1 hr)) t

/-- C89: neologdn does not treat texts read backwards alike. -/
theorem C89_neologdn (σ : Oracle) : ∃ c, Chanoma.neologdn σ = .ok c ∧ ∀ σs debug,
    c.normalize σs debug (c! "か゛") = .ok (c! "が") ∧
    c.normalize σs debug (c! "か゛").reverse = .ok (c! "゛か") := by
  obtain ⟨c, h, hn⟩ := C16_neologdn σ
  refine ⟨c, h, fun σs debug => ⟨?_, ?_⟩⟩ <;> rw [hn] <;> decide +kernel

/-! ### Examples -/

/-- `aa ↦ b` and `aba ↦ c` depend on the direction of reading; `aa ↦ aaa` and `ab ↦ x` do not. -/
example : ¬ OverlapsAgree (c! "aa") (c! "b") ∧ ¬ OverlapsAgree (c! "aba") (c! "c") ∧
    OverlapsAgree (c! "aa") (c! "aaa") ∧ OverlapsAgree (c! "ab") (c! "x") := by
  refine ⟨fun h => ?_, fun h => ?_, ?_, ?_⟩
  · exact absurd (h (c! "a") (c! "a") (c! "a") (by decide) rfl rfl) (by decide)
  · exact absurd (h (c! "a") (c! "ba") (c! "ab") (by decide) rfl rfl) (by decide)
  all_goals
    intro s x y h hx hy
    have lx := congrArg List.length hx
    have ly := congrArg List.length hy
    match s, x, y with
    | [], _, _ => exact absurd rfl h
    | [s1], [x1], [y1] =>
      simp only [List.cons_append, List.nil_append, List.cons.injEq, and_true] at hx hy
      obtain ⟨rfl, rfl⟩ := hx
      obtain ⟨rfl, h⟩ := hy
      first | rfl | exact absurd h (by decide)
    | [s1, s2], [], [] => rfl
    | [s1], [], _ | [s1], _ :: _ :: _, _ | [s1], _, [] | [s1], _, _ :: _ :: _ | _ :: _ :: _ :: _, _, _
    | [s1, s2], _ :: _, _ | [s1, s2], _, _ :: _ => simp at lx ly <;> omega

/-- The pipeline of a configuration: the dotted-space rule, then `trim`. -/
example : ∃ c, ApiBuilt c ∧ (∀ m ∈ c.modifiers, ¬ m.LooksBack) ∧ ∀ σs debug,
    c.normalize σs debug (c! " ab  c あ d ") = .ok (c! "ab cあd") ∧
    c.normalize σs debug (c! " d あ c  ba ") = .ok (c! "dあc ba") := by
  refine ⟨⟨[.dottedSpaceEliminator, .trim, .characterConverter ⟨[]⟩]⟩, ?_, ?_, ?_⟩
  · exact .fromConfigFile (σ := .insertion) (path := p! "/c.yaml")
      (w := .ofFiles [(p! "/c.yaml", .text [])] (fun _ => some (.mapping [(.string (c! "modifiers"),
        .mapping [(.string (c! "dotted_space_eliminator"), .null), (.string (c! "trim"), .null)])]))) rfl
  · simp [ModifierKind.LooksBack]
  · intro σs debug
    constructor <;> rw [normalize_wf (by simp [ModifierKind.WF]) (by simp)] <;>
      simp only [Chanoma.normalize, ModifierKind.modify, modify_eq, substitute, HMap.get?, List.zipIdx_cons,
        List.zipIdx_nil, List.foldlM_cons, List.foldlM_nil, Bool.not_false, if_true, Outcome.ok_bind] <;>
      decide +kernel

end Chanoma
