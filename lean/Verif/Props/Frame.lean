import Verif.Props.Pipeline
import Verif.Props.Reported
import Verif.Props.Neologdn
import Verif.Props.Swap
import Verif.Spec.Frame
/-! # C77: what is not mentioned stays -/

namespace Chanoma

theorem squeeze_flatMap {α : Type} (g : Char → List α) {c : Char} (h : g c = []) (t : Str) :
    (squeeze c t).flatMap g = t.flatMap g := by
  induction t with
  | nil => rfl
  | cons a t ih =>
    rw [squeeze]
    split
    · rename_i e; rw [ih, List.flatMap_cons, e.1, h, List.nil_append]
    · rw [List.flatMap_cons, List.flatMap_cons, ih]

theorem filter_flatMap {α : Type} (g : Char → List α) (p : Char → Bool) (h : ∀ c, p c = false → g c = [])
    (t : Str) : (t.filter p).flatMap g = t.flatMap g := by
  induction t with
  | nil => rfl
  | cons a t ih =>
    cases e : p a with
    | false => rw [List.filter_cons_of_neg (by simp [e]), List.flatMap_cons, h a e, ih, List.nil_append]
    | true => rw [List.filter_cons_of_pos e, List.flatMap_cons, List.flatMap_cons, ih]

theorem dGo_flatMap {α : Type} (g : Char → List α) (h : g ' ' = []) (t : Str) (p sp : Bool) :
    (dGo p sp t).flatMap g = t.flatMap g := by
  induction t generalizing p sp with
  | nil => rfl
  | cons c t ih =>
    rw [dGo]
    split
    · rename_i e; rw [ih, List.flatMap_cons, e, h, List.nil_append]
    · rw [List.flatMap_append, List.flatMap_cons, List.flatMap_cons, ih]
      split <;> simp [h]

theorem spaceRule_flatMap {α : Type} (g : Char → List α) (h : g ' ' = []) (t : Str) :
    (spaceRule t).flatMap g = t.flatMap g := by
  rw [← dotted_eq, dotted_eq_dGo, dGo_flatMap g h]

theorem replaced_flatMap {α : Type} (g : Char → List α) {R : List (Str × Str)}
    (h : ∀ r ∈ R, r.1.flatMap g = r.2.flatMap g) {t o : Str} (hr : Replaced R t o) :
    o.flatMap g = t.flatMap g := by
  induction hr with
  | nil => rfl
  | hit h1 _ _ ih => rw [List.flatMap_append, List.flatMap_append, ih, h _ h1]
  | keep _ _ ih => rw [List.flatMap_cons, List.flatMap_cons, ih]

theorem strReplace_flatMap {α : Type} (g : Char → List α) {k v : Str} (h : k.flatMap g = v.flatMap g) (t : Str) :
    (strReplace k v t).flatMap g = t.flatMap g := by
  by_cases hk : k = []
  · subst hk
    have hv : v.flatMap g = [] := h.symm
    rw [strReplace, List.flatMap_append, hv, List.nil_append]
    induction t with
    | nil => rfl
    | cons c t ih =>
      rw [List.flatMap_cons, List.flatMap_append, List.flatMap_cons, hv, ih, List.flatMap_cons, List.append_nil]
  · exact replaced_flatMap g (by simpa using h) (strReplace_replaced hk v t)

theorem compose_flatMap {α : Type} (g : Char → List α)
    (h : ∀ a m b, voiced a m = some b → g b = g a ++ g m) (t : Str) :
    (composeMarks t).flatMap g = t.flatMap g := by
  refine replaced_flatMap g (fun r hr => ?_) (compose_replaced t)
  obtain ⟨a, m, b, rfl⟩ := ligature_shape r hr
  simp [h a m b (ligature_voiced hr)]

theorem spec_flatMap {α : Type} (g : Char → List α) (h1 : g ' ' = []) (h2 : g 'ー' = [])
    (h3 : ∀ c ∈ tildeChars, g c = []) (h4 : ∀ a m b, voiced a m = some b → g b = g a ++ g m) (t : Str) :
    (neologdnSpec t).flatMap g = (t.map neologdnFold).flatMap g := by
  rw [neologdnSpec, compose_flatMap g h4, filter_flatMap g _ (fun c hc => h3 c (by simpa using hc)),
    spaceRule_flatMap g h1, squeeze_flatMap g h2]

theorem filter_eq_flatMap (p : Char → Bool) (t : Str) :
    t.filter p = t.flatMap fun c => if p c = true then [c] else [] := by
  induction t with
  | nil => rfl
  | cons a t ih => rw [List.flatMap_cons, ← ih, List.filter_cons]; split <;> simp

theorem map_filter_congr (p : Char → Bool) (f : Char → Char)
    (h : ∀ c, f c ≠ c → p c = false ∧ p (f c) = false) (t : Str) : (t.map f).filter p = t.filter p := by
  induction t with
  | nil => rfl
  | cons a t ih =>
    rw [List.map_cons, List.filter_cons, List.filter_cons, ih]
    by_cases e : f a = a
    · rw [e]
    · rw [(h a e).1, (h a e).2]; simp

theorem hget_mem {κ ν : Type} [DecidableEq κ] {m : HMap κ ν} {k : κ} {v : ν} (h : m.get? k = some v) :
    (k, v) ∈ m := by
  induction m with
  | nil => simp [HMap.get?] at h
  | cons e m ih =>
    rw [HMap.get?] at h
    split at h
    · rename_i e'; rw [← e', ← Option.some.inj h]; simp
    · exact List.mem_cons_of_mem _ (ih h)

theorem modify_frame {k : ModifierKind} (hk : k.WF) (P : Char → Bool)
    (hP : ∀ c, Mentions k c → P c = false) (σ : Oracle) (text out : Str) (h : k.modify σ text = .ok out) :
    out.filter P = text.filter P := by
  have hg : ∀ c, Mentions k c → (if P c = true then [c] else []) = ([] : Str) := fun c hc => by simp [hP c hc]
  cases k with
  | characterConverter x =>
    rw [ModifierKind.modify, modify_eq, Outcome.ok.injEq] at h
    rw [← h, substitute]
    refine map_filter_congr P _ (fun c hc => ?_) text
    cases e : x.itemsMap.get? c with
    | none => simp [e] at hc
    | some d =>
      have hm : (c, d) ∈ x.itemsMap := hget_mem e
      exact ⟨hP c ⟨_, hm, .inl rfl⟩, by simpa using hP d ⟨_, hm, .inr rfl⟩⟩
  | characterEliminator x =>
    rw [ModifierKind.modify, eliminator_eq, Outcome.ok.injEq] at h
    rw [← h, filter_eq_flatMap, filter_eq_flatMap P text]
    exact filter_flatMap _ _ (fun c hc => hg c (by simpa [Mentions] using hc)) text
  | consecutiveCharacterReducer x =>
    rw [ModifierKind.modify, reducer_eq, Outcome.ok.injEq] at h
    rw [← h, filter_eq_flatMap, filter_eq_flatMap P text]
    exact squeeze_flatMap _ (hg _ rfl) text
  | dottedSpaceEliminator =>
    rw [ModifierKind.modify, dotted_eq, Outcome.ok.injEq] at h
    rw [← h, filter_eq_flatMap, filter_eq_flatMap P text]
    exact spaceRule_flatMap _ (hg _ rfl) text
  | ligatureTranslator x =>
    rw [ModifierKind.modify, Outcome.ok.injEq] at h
    rw [← h, filter_eq_flatMap, filter_eq_flatMap P text, LigatureTranslator.modify]
    have hm : ∀ e ∈ σ.iter x.map, e ∈ x.map := fun e he => (σ.iter_perm _).mem_iff.1 he
    generalize σ.iter x.map = l at hm
    clear h
    induction l generalizing text with
    | nil => rfl
    | cons e l ih =>
      rw [List.foldl_cons, ih _ fun e he => hm e (by simp [he])]
      refine strReplace_flatMap _ ?_ text
      have h1 : ∀ s : Str, (∀ c ∈ s, c ∈ e.1 ∨ c ∈ e.2) →
          (s.flatMap fun c => if P c = true then [c] else []) = [] := by
        intro s hs
        exact List.flatMap_eq_nil_iff.2 fun c hc => hg c ⟨e, hm e (by simp), hs c hc⟩
      rw [h1 e.1 fun c hc => .inl hc, h1 e.2 fun c hc => .inr hc]
  | trim =>
    obtain ⟨a, b, h1, -⟩ := trimPos_eq text
    rw [ModifierKind.modify, Outcome.ok.injEq] at h
    rw [h] at h1
    rw [h1, List.filter_append, List.filter_append]
    have hs : ∀ n, (List.replicate n ' ').filter P = [] := fun n => by
      rw [List.filter_replicate, if_neg (by simp [hP ' ' rfl])]
    simp [hs]
  | neologdn n =>
    obtain ⟨τ, hτ⟩ := hk
    obtain ⟨x, h1, -, h2, -⟩ := neologdn_new τ
    rw [h1] at hτ; cases hτ
    rw [ModifierKind.modify, h2, Outcome.ok.injEq] at h
    rw [← h, filter_eq_flatMap, spec_flatMap _ (hg _ (.inr (.inl rfl))) (hg _ (.inr (.inr (.inl rfl))))
      (fun c hc => hg c (.inr (.inr (.inr (.inl hc))))), ← filter_eq_flatMap]
    · refine map_filter_congr P _ (fun c hc => ?_) text
      exact ⟨hP c (.inl ⟨c, Ne.symm hc, .inl rfl⟩), hP _ (.inl ⟨c, Ne.symm hc, .inr rfl⟩)⟩
    · intro a m b hv
      rw [hg a (.inr (.inr (.inr (.inr ⟨a, m, b, hv, .inl rfl⟩)))),
        hg m (.inr (.inr (.inr (.inr ⟨a, m, b, hv, .inr (.inl rfl)⟩)))),
        hg b (.inr (.inr (.inr (.inr ⟨a, m, b, hv, .inr (.inr rfl)⟩))))]
      rfl

/-- C77: the characters that no modifier of a pipeline mentions stay, in their order, and none of them
is added, whatever the iteration orders. -/
theorem C77_frame (c : Chanoma) (hc : ApiBuilt c) (P : Char → Bool)
    (hP : ∀ k ∈ c.modifiers, ∀ ch, Mentions k ch → P ch = false) (σs : Nat → Oracle) (debug : Bool)
    (text out : Str) (h : c.normalize σs debug text = .ok out) : out.filter P = text.filter P := by
  have hw := apiBuilt_wf hc
  have hne : debug = true → c.modifiers ≠ [] := by
    rintro rfl e
    obtain ⟨ms⟩ := c
    cases e
    simp [Chanoma.normalize, Chanoma.normalizeWithPositions, ModifiedRecords.text, unwrap] at h
  have hf : c.normalize σs false text = .ok out := by
    cases debug with
    | false => exact h
    | true => rw [← normalize_wf hw (hne rfl) σs true, h]
  obtain ⟨rs, h1, -, h3⟩ := pipeline_eq c hw σs text
  rw [hf, Outcome.ok.injEq] at h3
  rw [h3]
  have key : ∀ (ms : List ModifierKind) (i : Nat) (text : Str) (rs : List ModifiedRecord),
      Chained σs i text ms rs → (∀ m ∈ ms, m.WF) → (∀ k ∈ ms, ∀ ch, Mentions k ch → P ch = false) →
      (lastText text rs).filter P = text.filter P := by
    intro ms
    induction ms with
    | nil =>
      intro i text rs h1 _ _
      cases rs with
      | nil => rfl
      | cons _ _ => exact h1.elim
    | cons m ms ih =>
      intro i text rs h1 hw hP
      cases rs with
      | nil => exact h1.elim
      | cons r rs =>
        obtain ⟨-, h2, h3⟩ := h1
        rw [lastText_cons, ih _ _ _ h3 (fun m hm => hw m (by simp [hm])) fun k hk => hP k (by simp [hk])]
        exact modify_frame (hw m (by simp)) P (hP m (by simp)) _ _ _ h2
  exact key _ _ _ _ h1 hw hP

/-- C77: neologdn changes a text, its widths apart, only in its spaces, tildes, `ー` and sound marks. -/
theorem C77_neologdn_skeleton (σ : Oracle) (c : Chanoma) (hc : Chanoma.neologdn σ = .ok c)
    (σs : Nat → Oracle) (debug : Bool) (text out : Str) (h : c.normalize σs debug text = .ok out) :
    skeleton out = skeleton (text.map neologdnFold) := by
  obtain ⟨c', h1, h2⟩ := C16_neologdn σ
  rw [h1] at hc; cases hc
  rw [h2, Outcome.ok.injEq] at h
  rw [← h]
  have e : ∀ t, skeleton t = t.flatMap fun c =>
      if c ∉ ' ' :: 'ー' :: '゛' :: '゜' :: tildeChars then [unvoiced c] else [] := by
    intro t
    rw [skeleton]
    induction t with
    | nil => rfl
    | cons a t ih =>
      rw [List.flatMap_cons, ← ih]
      by_cases ha : a ∈ ' ' :: 'ー' :: '゛' :: '゜' :: tildeChars
      · rw [List.filter_cons_of_neg (by rw [decide_eq_true_eq]; exact fun h => h ha), if_neg (fun h => h ha), List.nil_append]
      · rw [List.filter_cons_of_pos (by simpa using ha), if_pos ha]; rfl
  rw [e, e]
  refine spec_flatMap _ (by simp) (by simp) (fun c hc => by simp [hc]) ?_ text
  intro a m b hv
  have h3 : ∀ r ∈ neologdnLigatures, ∀ a ∈ r.1.head?, ∀ m ∈ r.1.getLast?, ∀ b ∈ r.2.head?,
      a ∉ ' ' :: 'ー' :: '゛' :: '゜' :: tildeChars ∧ m ∈ ' ' :: 'ー' :: '゛' :: '゜' :: tildeChars ∧
      b ∉ ' ' :: 'ー' :: '゛' :: '゜' :: tildeChars ∧ unvoiced b = unvoiced a := by decide +kernel
  obtain ⟨g1, g2, g3, g4⟩ := h3 _ (voiced_cases hv) a rfl m rfl b rfl
  rw [if_pos g1, if_neg (c := ¬ m ∈ _) (fun h => h g2), if_pos g3, g4, List.append_nil]

theorem preset_kanji (c : Char) (h : presetFold c ≠ c) : isKanji c = false ∧ isKanji (presetFold c) = false := by
  have hc : ∀ n ∈ presetCodes, isKanji (Char.ofNat n) = false ∧ isKanji (presetFold (Char.ofNat n)) = false := by
    decide +kernel
  have := hc _ (presetFold_ne h)
  rwa [char_ofNat_toNat] at this

theorem fold_kanji (c : Char) (h : neologdnFold c ≠ c) : isKanji c = false ∧ isKanji (neologdnFold c) = false := by
  have h1 : ∀ c ∈ choonpuVariants ++ hyphenVariants, isKanji c = false ∧ isKanji (neologdnFold c) = false := by
    decide +kernel
  by_cases h2 : c ∈ choonpuVariants ++ hyphenVariants
  · exact h1 c h2
  · rw [List.mem_append, not_or] at h2
    have h3 : c ≠ '＝' := fun e => h (by rw [e]; decide +kernel)
    have e : neologdnFold c = presetFold c := by simp [neologdnFold, h2, h3]
    rw [e] at h ⊢
    exact preset_kanji c h

theorem neologdn_mentions_kanji (x : Neologdn) (c : Char) (h : Mentions (.neologdn x) c) : isKanji c = false := by
  rcases h with ⟨d, hd, rfl | rfl⟩ | rfl | rfl | h | ⟨a, m, b, hv, h⟩
  · exact (fold_kanji _ (Ne.symm hd)).1
  · exact (fold_kanji _ (Ne.symm hd)).2
  · decide +kernel
  · decide +kernel
  · have : ∀ c ∈ tildeChars, isKanji c = false := by decide +kernel
    exact this c h
  · have h3 : ∀ r ∈ neologdnLigatures, ∀ a ∈ r.1.head?, ∀ m ∈ r.1.getLast?, ∀ b ∈ r.2.head?,
        isKanji a = false ∧ isKanji m = false ∧ isKanji b = false := by decide +kernel
    obtain ⟨g1, g2, g3⟩ := h3 _ (voiced_cases hv) a rfl m rfl b rfl
    rcases h with rfl | rfl | rfl
    · exact g1
    · exact g2
    · exact g3

/-- C77, for example: the ideographs of a text come through the preset and neologdn as they are. -/
theorem C77_kanji (σ : Oracle) (c : Chanoma) (hc : Chanoma.preset σ = .ok c ∨ Chanoma.neologdn σ = .ok c)
    (σs : Nat → Oracle) (debug : Bool) (text out : Str) (h : c.normalize σs debug text = .ok out) :
    out.filter isKanji = text.filter isKanji := by
  rcases hc with hc | hc
  · obtain ⟨c', h1, h2⟩ := C07_preset σ
    rw [h1] at hc; cases hc
    rw [h2, Outcome.ok.injEq] at h
    rw [← h]
    exact map_filter_congr _ _ preset_kanji text
  · refine C77_frame c (.neologdn hc) isKanji (fun k hk ch hm => ?_) σs debug text out h
    obtain ⟨x, h1, -⟩ := neologdn_new σ
    simp [Chanoma.neologdn, h1] at hc
    rw [← hc] at hk
    rw [List.mem_singleton.1 hk] at hm
    exact neologdn_mentions_kanji x ch hm

/-- The hypotheses of `C77_frame` are met by the text modifiers and letters, say. -/
example : ∀ k ∈ [ModifierKind.trim, .consecutiveCharacterReducer ⟨'ー'⟩, .characterEliminator ⟨['~']⟩,
      .ligatureTranslator ⟨[(c! "~~", c! "!")]⟩], ∀ ch, Mentions k ch → Char.isAlpha ch = false := by
  intro k hk ch hm
  simp only [List.mem_cons, List.not_mem_nil, or_false] at hk
  rcases hk with rfl | rfl | rfl | rfl
  · rw [show ch = ' ' from hm]; decide +kernel
  · rw [show ch = 'ー' from hm]; decide +kernel
  · have : ch ∈ ['~'] := hm
    rw [List.mem_singleton.1 this]; decide +kernel
  · obtain ⟨e, he, h⟩ := hm
    rw [List.mem_singleton.1 he] at h
    have hall : ∀ ch ∈ c! "~~" ++ c! "!", Char.isAlpha ch = false := by decide +kernel
    exact hall ch (List.mem_append.2 h)
example : (neologdnSpec (c! "東京 特許～許可　局")).filter isKanji = c! "東京特許許可局" := by decide +kernel
example : skeleton (neologdnSpec (c! "ｶ゛ーー ～ﾊ゜")) = c! "カハ" ∧ neologdnSpec (c! "ｶ゛ーー ～ﾊ゜") = c! "ガーパ" := by
  decide +kernel

end Chanoma
