import Verif.Props.Frame
import Verif.Props.Finite
import Verif.Spec.Rename
/-! # C80: the characters that are not mentioned are all treated alike -/

namespace Chanoma

theorem squeeze_rename {ρ : Char → Char} {c : Char} (h : ∀ d, ρ d = c ↔ d = c) (t : Str) :
    squeeze c (t.map ρ) = (squeeze c t).map ρ := by
  induction t with
  | nil => rfl
  | cons a t ih =>
    rw [List.map_cons, squeeze, squeeze, ih]
    have e : (t.map ρ).head? = some c ↔ t.head? = some c := by cases t <;> simp [h]
    simp only [h, e]
    split <;> rfl

theorem dGo_rename {ρ : Char → Char} (h : ∀ d, ρ d = ' ' ↔ d = ' ')
    (ha : ∀ d, isAsciiAlphanumeric (ρ d) = isAsciiAlphanumeric d) (t : Str) (p sp : Bool) :
    dGo p sp (t.map ρ) = (dGo p sp t).map ρ := by
  induction t generalizing p sp with
  | nil => rfl
  | cons a t ih =>
    rw [List.map_cons, dGo, dGo]
    simp only [h, ha, ih]
    split
    · rfl
    · rw [List.map_append, List.map_cons]
      congr 1
      split
      · rw [List.map_singleton, (h ' ').2 rfl]
      · rfl

theorem filter_rename {ρ : Char → Char} {p : Char → Bool} (h : ∀ d, p (ρ d) = p d) (t : Str) :
    (t.map ρ).filter p = (t.filter p).map ρ := by
  rw [List.filter_map]
  congr 1
  exact List.filter_congr fun c _ => h c

theorem prefix_rename {ρ : Char → Char} {k : Str} (h : ∀ c ∈ k, ∀ d, ρ d = c ↔ d = c) (t : Str) :
    k <+: t.map ρ ↔ k <+: t := by
  induction k generalizing t with
  | nil => simp
  | cons a k ih =>
    cases t with
    | nil => simp
    | cons b t =>
      rw [List.map_cons, List.cons_prefix_cons, List.cons_prefix_cons, ih (fun c hc => h c (by simp [hc]))]
      have := h a (by simp) b
      constructor
      · rintro ⟨e, h'⟩; exact ⟨(this.1 e.symm).symm, h'⟩
      · rintro ⟨e, h'⟩; exact ⟨(this.2 e.symm).symm, h'⟩

theorem strReplace_rename {ρ : Char → Char} {k v : Str} (h : ∀ c ∈ k, ∀ d, ρ d = c ↔ d = c)
    (hv : v.map ρ = v) (t : Str) : strReplace k v (t.map ρ) = (strReplace k v t).map ρ := by
  by_cases hk : k = []
  · subst hk
    rw [strReplace, strReplace, List.map_append, hv]
    congr 1
    induction t with
    | nil => rfl
    | cons c t ih => rw [List.map_cons, List.flatMap_cons, List.flatMap_cons, ih, List.map_append, List.map_cons, hv]
  · have hkk : k.map ρ = k := by
      rw [List.map_congr_left (g := id) fun c hc => (h c hc c).2 rfl, List.map_id]
    generalize hn : t.length = n
    induction n using Nat.strongRecOn generalizing t with
    | _ n ih =>
      by_cases hp : k <+: t
      · obtain ⟨r, rfl⟩ := hp
        have hl := List.length_pos_iff.2 hk
        rw [List.map_append, hkk, strReplace_hit hk, strReplace_hit hk,
          ih r.length (by rw [← hn, List.length_append]; omega) r rfl, List.map_append, hv]
      · cases t with
        | nil => rw [List.map_nil, strReplace_nil hk]; rfl
        | cons a t =>
          have hp' : ¬ k <+: ρ a :: t.map ρ := fun h' => hp ((prefix_rename h (a :: t)).1 h')
          rw [List.map_cons, strReplace_keep hk v hp', strReplace_keep hk v hp,
            ih t.length (by rw [← hn]; simp) t rfl, List.map_cons]

theorem compose_rename {ρ : Char → Char} (h : ∀ a m, voiced (ρ a) (ρ m) = (voiced a m).map ρ) (t : Str) :
    composeMarks (t.map ρ) = (composeMarks t).map ρ := by
  generalize hn : t.length = n
  induction n using Nat.strongRecOn generalizing t with
  | _ n ih =>
    match t with
    | [] => rfl
    | [a] => rfl
    | a :: m :: t =>
      rw [List.map_cons, List.map_cons, composeMarks, composeMarks, h]
      simp only [List.length_cons] at hn
      cases hv : voiced a m with
      | none =>
        have := ih (m :: t).length (by simp only [List.length_cons]; omega) (m :: t) rfl
        rw [List.map_cons] at this
        simp only [Option.map_none, this, List.map_cons]
      | some b =>
        simp only [Option.map_some, ih t.length (by omega) t rfl, List.map_cons]

theorem trim_rename {ρ : Char → Char} (h : ∀ d, ρ d = ' ' ↔ d = ' ') (t : Str) :
    trimModify (t.map ρ) = (trimModify t).map ρ := by
  have hd : ∀ t : Str, (t.map ρ).dropWhile (· == ' ') = (t.dropWhile (· == ' ')).map ρ := by
    intro t
    induction t with
    | nil => rfl
    | cons a t ih =>
      rw [List.map_cons, List.dropWhile_cons, List.dropWhile_cons, ih]
      simp only [beq_iff_eq, h]
      split <;> rfl
  rw [trimModify, trimModify, trimMatches, trimMatches, trimStartMatches, trimStartMatches, trimEndMatches,
    trimEndMatches, hd, ← List.map_reverse, hd, List.map_reverse]

theorem modify_rename {k : ModifierKind} (hk : k.WF) {ρ : Char → Char} (h1 : ∀ c, Mentions k c → ρ c = c)
    (h2 : ∀ c, ¬ Mentions k c → ¬ Mentions k (ρ c))
    (h3 : TellsAlnum k → ∀ c, isAsciiAlphanumeric (ρ c) = isAsciiAlphanumeric c) (σ : Oracle) (t : Str) :
    ∃ o, k.modify σ t = .ok o ∧ k.modify σ (t.map ρ) = .ok (o.map ρ) := by
  have hm : ∀ c, Mentions k c → ∀ d, ρ d = c ↔ d = c := by
    intro c hc d
    constructor
    · intro e
      by_cases hd : Mentions k d
      · rw [← e, h1 d hd]
      · exact absurd (e ▸ hc) (h2 d hd)
    · rintro rfl; exact h1 _ hc
  cases k with
  | characterConverter x =>
    refine ⟨_, by rw [ModifierKind.modify, modify_eq], ?_⟩
    rw [ModifierKind.modify, modify_eq, substitute, substitute, List.map_map, List.map_map]
    congr 1
    refine List.map_congr_left fun c _ => ?_
    show (x.itemsMap.get? (ρ c)).getD (ρ c) = ρ ((x.itemsMap.get? c).getD c)
    by_cases hc : Mentions (.characterConverter x) c
    · rw [h1 c hc]
      cases e : x.itemsMap.get? c with
      | none => simp [h1 c hc]
      | some d => simp [h1 d ⟨_, hget_mem e, .inr rfl⟩]
    · have hn : ∀ d, ¬ Mentions (.characterConverter x) d → x.itemsMap.get? d = none := by
        intro d hd
        cases e : x.itemsMap.get? d with
        | none => rfl
        | some d' => exact absurd ⟨_, hget_mem e, .inl rfl⟩ hd
      rw [hn c hc, hn _ (h2 c hc)]; rfl
  | characterEliminator x =>
    refine ⟨_, by rw [ModifierKind.modify, eliminator_eq], ?_⟩
    rw [ModifierKind.modify, eliminator_eq, filter_rename]
    intro d
    by_cases hd : d ∈ x.chars
    · rw [h1 d hd]
    · have := h2 d hd
      simp only [Mentions] at this
      simp [hd, this]
  | consecutiveCharacterReducer x =>
    exact ⟨_, by rw [ModifierKind.modify, reducer_eq], by rw [ModifierKind.modify, reducer_eq, squeeze_rename (hm _ rfl)]⟩
  | dottedSpaceEliminator =>
    exact ⟨_, by rw [ModifierKind.modify, dotted_eq_dGo], by rw [ModifierKind.modify, dotted_eq_dGo, dGo_rename (hm _ rfl) (h3 trivial)]⟩
  | ligatureTranslator x =>
    refine ⟨_, rfl, ?_⟩
    rw [ModifierKind.modify, LigatureTranslator.modify, LigatureTranslator.modify]
    congr 1
    have hx : ∀ e ∈ σ.iter x.map, e ∈ x.map := fun e he => (σ.iter_perm x.map).mem_iff.1 he
    generalize σ.iter x.map = l at hx
    induction l generalizing t with
    | nil => rfl
    | cons e l ih =>
      rw [List.foldl_cons, List.foldl_cons, strReplace_rename, ih _ fun e he => hx e (by simp [he])]
      · intro c hc
        exact hm c ⟨e, hx e (by simp), .inl hc⟩
      · rw [List.map_congr_left (g := id) fun c hc => h1 c ⟨e, hx e (by simp), .inr hc⟩, List.map_id]
  | trim => exact ⟨_, rfl, by rw [ModifierKind.modify, trim_rename (hm _ rfl)]⟩
  | neologdn n =>
    obtain ⟨τ, hτ⟩ := hk
    obtain ⟨x, g1, -, g2, -⟩ := neologdn_new τ
    rw [g1] at hτ; cases hτ
    refine ⟨_, by rw [ModifierKind.modify, g2], ?_⟩
    rw [ModifierKind.modify, g2]
    congr 1
    have hfold : (t.map ρ).map neologdnFold = (t.map neologdnFold).map ρ := by
      rw [List.map_map, List.map_map]
      refine List.map_congr_left fun c _ => ?_
      show neologdnFold (ρ c) = ρ (neologdnFold c)
      by_cases e : neologdnFold c = c
      · rw [e]
        by_cases hc : Mentions (.neologdn n) c
        · rw [h1 c hc, e]
        · apply Classical.byContradiction
          intro e'
          exact h2 c hc (.inl ⟨_, Ne.symm e', .inl rfl⟩)
      · rw [h1 c (.inl ⟨c, Ne.symm e, .inl rfl⟩), h1 _ (.inl ⟨c, Ne.symm e, .inr rfl⟩)]
    rw [neologdnSpec, neologdnSpec, hfold, squeeze_rename (hm _ (.inr (.inr (.inl rfl)))), ← dotted_eq, ← dotted_eq,
      dotted_eq_dGo, dotted_eq_dGo, dGo_rename (hm _ (.inr (.inl rfl))) (h3 trivial), filter_rename, compose_rename]
    · intro a m
      cases hv : voiced a m with
      | some b =>
        have hb : ∀ c, c = a ∨ c = m ∨ c = b → ρ c = c := fun c hc =>
          h1 c (.inr (.inr (.inr (.inr ⟨a, m, b, hv, hc⟩))))
        rw [hb a (.inl rfl), hb m (.inr (.inl rfl)), hv, Option.map_some, hb b (.inr (.inr rfl))]
      | none =>
        cases hv' : voiced (ρ a) (ρ m) with
        | none => rfl
        | some b =>
          have hb : ∀ c, c = ρ a ∨ c = ρ m ∨ c = b → Mentions (.neologdn n) c := fun c hc =>
            (.inr (.inr (.inr (.inr ⟨ρ a, ρ m, b, hv', hc⟩))))
          have ea := (hm _ (hb _ (.inl rfl)) a).1 rfl
          have em := (hm _ (hb _ (.inr (.inl rfl))) m).1 rfl
          rw [← ea, ← em, hv] at hv'
          cases hv'
    · intro d
      by_cases hd : d ∈ tildeChars
      · rw [h1 d (.inr (.inr (.inr (.inl hd))))]
      · have : ρ d ∉ tildeChars := fun h => hd (by
          have := (hm _ (.inr (.inr (.inr (.inl h)))) d).1 rfl
          rw [this]; exact h)
        simp [hd, this]

/-- C80: renaming characters that no modifier mentions commutes with normalisation: a converter cannot
tell such characters from each other, except ASCII letters and digits from other characters if it has a
modifier that can. -/
theorem C80_rename {c : Chanoma} (hc : ApiBuilt c) {ρ : Char → Char} (hρ : Renaming c ρ) (σs : Nat → Oracle)
    (debug : Bool) (text out : Str) (h : c.normalize σs debug text = .ok out) :
    c.normalize σs debug (text.map ρ) = .ok (out.map ρ) := by
  have hw := apiBuilt_wf hc
  have key : ∀ (ms : List ModifierKind), (∀ m ∈ ms, m ∈ c.modifiers) → ∀ (i : Nat) (text : Str), ∃ o,
      (ms.zipIdx i).foldlM (fun acc m => m.1.modify (σs m.2) acc) text = .ok o ∧
      (ms.zipIdx i).foldlM (fun acc m => m.1.modify (σs m.2) acc) (text.map ρ) = .ok (o.map ρ) := by
    intro ms
    induction ms with
    | nil => intro _ i text; exact ⟨text, rfl, rfl⟩
    | cons m ms ih =>
      intro hs i text
      have hmem := hs m (by simp)
      obtain ⟨o, h1, h2⟩ := modify_rename (hw m hmem) (ρ := ρ) (fun ch hch => hρ.fixed ch ⟨m, hmem, hch⟩)
        (fun ch hch => by
          by_cases hm : c.Mentions ch
          · rw [hρ.fixed ch hm]; exact hch
          · exact fun h => hρ.apart ch hm ⟨m, hmem, h⟩)
        (fun ht => hρ.alnum ⟨m, hmem, ht⟩) (σs i) text
      obtain ⟨o', h3, h4⟩ := ih (fun m hm => hs m (by simp [hm])) (i + 1) o
      refine ⟨o', ?_, ?_⟩
      · rw [List.zipIdx_cons, List.foldlM_cons]
        simp only [h1, Outcome.ok_bind]; exact h3
      · rw [List.zipIdx_cons, List.foldlM_cons]
        simp only [h2, Outcome.ok_bind]; exact h4
  have hfalse : ∀ text out, c.normalize σs false text = .ok out → c.normalize σs false (text.map ρ) = .ok (out.map ρ) := by
    intro text out h
    obtain ⟨o, h1, h2⟩ := key c.modifiers (fun _ h => h) 0 text
    simp only [Chanoma.normalize, Bool.not_false, if_true] at h ⊢
    rw [h1] at h; cases h
    exact h2
  cases debug with
  | false => exact hfalse _ _ h
  | true =>
    by_cases hne : c.modifiers = []
    · rw [normalize_debug_nil hne] at h; cases h
    · rw [normalize_wf hw hne] at h ⊢
      exact hfalse _ _ h

/-- A text is known from its image under a renaming and its renamed part. -/
theorem rename_inj {ρ : Char → Char} {P : Char → Bool} (h1 : ∀ x, P x = false → ρ x = x)
    (h2 : ∀ x, P x = true → P (ρ x) = true) : ∀ {a b : Str}, a.map ρ = b.map ρ → a.filter P = b.filter P → a = b
  | [], [], _, _ => rfl
  | [], _ :: _, h, _ => by simp at h
  | _ :: _, [], h, _ => by simp at h
  | x :: a, y :: b, h, h' => by
    rw [List.map_cons, List.map_cons, List.cons.injEq] at h
    cases hx : P x with
    | false =>
      have hy : P y = false := by
        cases hy : P y with
        | false => rfl
        | true =>
          have := h2 y hy
          rw [← h.1, h1 x hx, hx] at this
          cases this
      rw [List.filter_cons_of_neg (by simp [hx]), List.filter_cons_of_neg (by simp [hy])] at h'
      have e := h.1
      rw [h1 x hx, h1 y hy] at e
      rw [e, rename_inj h1 h2 h.2 h']
    | true =>
      have hy : P y = true := by
        cases hy : P y with
        | true => rfl
        | false =>
          have := h2 x hx
          rw [h.1, h1 y hy, hy] at this
          cases this
      rw [List.filter_cons_of_pos hx, List.filter_cons_of_pos hy, List.cons.injEq] at h'
      rw [h'.1, rename_inj h1 h2 h.2 h'.2]

/-- C79: it is even enough to look at short texts made of the characters that the two converters mention and
of representatives of the others: one that is an ASCII letter or digit and one that is not. -/
theorem C79_few_characters {c d : Chanoma} (hc : ApiBuilt c) (hd : ApiBuilt d) (σs τs : Nat → Oracle)
    (debug debug' : Bool) (reps : List Char)
    (hr : ∀ ch, ¬ c.Mentions ch → ¬ d.Mentions ch → ∃ r ∈ reps, ¬ c.Mentions r ∧ ¬ d.Mentions r ∧
      isAsciiAlphanumeric r = isAsciiAlphanumeric ch) :
    (∀ text, c.normalize σs debug text = d.normalize τs debug' text) ↔
    ∀ text : Str, text.length ≤ 2 * (c.memory * d.memory) →
      (∀ ch ∈ text, c.Mentions ch ∨ d.Mentions ch ∨ ch ∈ reps) →
      c.normalize σs debug text = d.normalize τs debug' text := by
  classical
  refine ⟨fun h t _ _ => h t, fun h => ?_⟩
  rw [C79_same_on_short hc hd]
  intro t ht
  have h0 := h [] (Nat.zero_le _) (by simp)
  rcases normalize_total hc σs debug with ⟨f, f1, -⟩ | f1 <;>
    rcases normalize_total hd τs debug' with ⟨g, g1, -⟩ | g1
  · have hr' : ∀ ch, ∃ r, (c.Mentions ch ∨ d.Mentions ch → r = ch) ∧
        (¬ (c.Mentions ch ∨ d.Mentions ch) → r ∈ reps ∧ ¬ (c.Mentions r ∨ d.Mentions r)) ∧
        isAsciiAlphanumeric r = isAsciiAlphanumeric ch := by
      intro ch
      by_cases hm : c.Mentions ch ∨ d.Mentions ch
      · exact ⟨ch, fun _ => rfl, fun h => absurd hm h, rfl⟩
      · obtain ⟨r, r1, r2, r3, r4⟩ := hr ch (fun h => hm (.inl h)) (fun h => hm (.inr h))
        exact ⟨r, fun h => absurd h hm, fun _ => ⟨r1, fun h => h.elim r2 r3⟩, r4⟩
    let ρ : Char → Char := fun ch => (hr' ch).choose
    have e1 : ∀ ch, c.Mentions ch ∨ d.Mentions ch → ρ ch = ch := fun ch => (hr' ch).choose_spec.1
    have e2 : ∀ ch, ¬ (c.Mentions ch ∨ d.Mentions ch) → ρ ch ∈ reps ∧ ¬ (c.Mentions (ρ ch) ∨ d.Mentions (ρ ch)) :=
      fun ch => (hr' ch).choose_spec.2.1
    have e3 : ∀ ch, isAsciiAlphanumeric (ρ ch) = isAsciiAlphanumeric ch := fun ch => (hr' ch).choose_spec.2.2
    have rc : Renaming c ρ := ⟨fun ch h => e1 ch (.inl h), fun ch h => by
      by_cases hm : d.Mentions ch
      · rw [e1 ch (.inr hm)]; exact h
      · exact fun h' => (e2 ch fun h'' => h''.elim h hm).2 (.inl h'), fun _ => e3⟩
    have rd : Renaming d ρ := ⟨fun ch h => e1 ch (.inr h), fun ch h => by
      by_cases hm : c.Mentions ch
      · rw [e1 ch (.inl hm)]; exact h
      · exact fun h' => (e2 ch fun h'' => h''.elim hm h).2 (.inr h'), fun _ => e3⟩
    have h4 := h (t.map ρ) (by rw [List.length_map]; exact ht) (by
      intro ch hch
      obtain ⟨b, -, rfl⟩ := List.mem_map.1 hch
      by_cases hm : c.Mentions b ∨ d.Mentions b
      · rw [e1 b hm]; exact hm.elim .inl fun h => .inr (.inl h)
      · exact .inr (.inr (e2 b hm).1))
    rw [C80_rename hc rc σs debug t _ (f1 t), C80_rename hd rd τs debug' t _ (g1 t), Outcome.ok.injEq] at h4
    rw [f1, g1]
    congr 1
    refine rename_inj (P := fun ch => decide (¬ (c.Mentions ch ∨ d.Mentions ch))) (fun x hx => e1 x
      (Classical.not_not.1 (of_decide_eq_false hx)))
      (fun x hx => by
        have := (e2 x (by simpa using hx)).2
        simpa using this) h4 ?_
    rw [C77_frame c hc _ (fun k hk ch hch => ?_) σs debug t _ (f1 t),
      C77_frame d hd _ (fun k hk ch hch => ?_) τs debug' t _ (g1 t)]
    · have : d.Mentions ch := ⟨k, hk, hch⟩
      simp [this]
    · have : c.Mentions ch := ⟨k, hk, hch⟩
      simp [this]
  · rw [f1, g1] at h0; cases h0
  · rw [f1, g1] at h0; cases h0
  · rw [f1, g1]

/-- A renaming: the converter mentions `a`, `b` and the space, and can tell letters. -/
example : Renaming ⟨[.characterConverter ⟨[('a', 'b')]⟩, .dottedSpaceEliminator]⟩
    (fun ch => if ch = '漢' then '字' else if ch = 'z' then 'y' else ch) where
  fixed := by
    rintro ch ⟨k, hk, h⟩
    simp only [List.mem_cons, List.not_mem_nil, or_false] at hk
    rcases hk with rfl | rfl
    · obtain ⟨e, he, h⟩ := h
      rw [List.mem_singleton.1 he] at h
      rcases h with rfl | rfl <;> decide
    · cases h; decide
  apart := by
    intro ch h
    by_cases h1 : ch = '漢'
    · subst h1; simp [Chanoma.Mentions, Mentions]
    · by_cases h2 : ch = 'z'
      · subst h2; simp [Chanoma.Mentions, Mentions]
      · simpa [h1, h2] using h
  alnum := by
    intro _ ch
    by_cases h1 : ch = '漢'
    · subst h1; decide
    · by_cases h2 : ch = 'z'
      · subst h2; decide
      · simp [h1, h2]

/-- The condition on letters is needed: without it the space would have to stay in both or neither. -/
example : dottedModify (c! "a z") = c! "a z" ∧ dottedModify (c! "a 漢") = c! "a漢" := by decide +kernel

/-- Representatives for a converter with one ligature rule: `x` and `漢`. -/
example (c : Chanoma) (h : c = ⟨[.ligatureTranslator ⟨[(c! "ab", c! "c")]⟩, .characterConverter ⟨[]⟩]⟩) (ch : Char) :
    ∃ r ∈ ['x', '漢'], ¬ c.Mentions r ∧ isAsciiAlphanumeric r = isAsciiAlphanumeric ch := by
  subst h
  cases e : isAsciiAlphanumeric ch
  · exact ⟨'漢', by simp, by simp [Chanoma.Mentions, Mentions], by decide⟩
  · exact ⟨'x', by simp, by simp [Chanoma.Mentions, Mentions], by decide⟩

end Chanoma
