import Verif.Spec.Sources
import Verif.Props.Again
import Verif.Props.Context
/-! # C96: how many texts come out the same -/

namespace Chanoma

theorem texts_product {g : Char → Char} {n : Char → Nat}
    (h : ∀ d, ∃ cs : List Char, cs.Nodup ∧ (∀ ch, ch ∈ cs ↔ g ch = d) ∧ cs.length = n d) (out : Str) :
    ∃ ts : List Str, ts.Nodup ∧ (∀ t, t ∈ ts ↔ t.map g = out) ∧ ts.length = out.foldr (fun d k => n d * k) 1 := by
  induction out with
  | nil => exact ⟨[[]], by simp, fun t => by simp, rfl⟩
  | cons d out ih =>
    obtain ⟨ts, h1, h2, h3⟩ := ih
    obtain ⟨cs, h4, h5, h6⟩ := h d
    refine ⟨cs.flatMap fun c => ts.map fun t => c :: t, ?_, fun t => ?_, ?_⟩
    · rw [List.Nodup, List.pairwise_flatMap]
      refine ⟨fun c _ => ?_, h4.imp fun {a b} hab x hx y hy e => ?_⟩
      · exact List.Pairwise.map _ (fun a b hab => by simpa using hab) h1
      · obtain ⟨u, -, rfl⟩ := List.mem_map.1 hx
        obtain ⟨v, -, rfl⟩ := List.mem_map.1 hy
        exact hab (List.cons.inj e).1
    · simp only [List.mem_flatMap, List.mem_map]
      constructor
      · rintro ⟨c, hc, u, hu, rfl⟩
        rw [List.map_cons, (h5 c).1 hc, (h2 u).1 hu]
      · intro e
        cases t with
        | nil => simp at e
        | cons c u =>
          rw [List.map_cons] at e
          obtain ⟨e1, e2⟩ := List.cons.inj e
          exact ⟨c, (h5 c).2 e1, u, (h2 u).2 e2, rfl⟩
    · rw [List.foldr_cons, ← h3, ← h6]
      clear h4 h5 h6
      induction cs with
      | nil => simp
      | cons c cs ih => simp [ih, Nat.succ_mul, Nat.add_comm]

theorem converters_map {c : Chanoma} (hc : ∀ m ∈ c.modifiers, ∃ x, m = .characterConverter x) :
    ∀ σs t, c.normalize σs false t = .ok (t.map c.onChar) := by
  suffices ∀ ms : List ModifierKind, (∀ m ∈ ms, ∃ x, m = .characterConverter x) → ∀ (σs : Nat → Oracle) n t,
      (ms.zipIdx n).foldlM (fun acc m => m.1.modify (σs m.2) acc) t =
        .ok (t.map fun ch => ms.foldl (fun ch m => m.onChar ch) ch) from fun σs t => this c.modifiers hc σs 0 t
  intro ms hms
  induction ms with
  | nil => intro σs n t; simp
  | cons m ms ih =>
    intro σs n t
    obtain ⟨x, rfl⟩ := hms m (by simp)
    rw [List.zipIdx_cons, List.foldlM_cons, ModifierKind.modify, modify_eq, Outcome.ok_bind,
      ih fun m hm => hms m (by simp [hm])]
    simp [substitute, ModifierKind.onChar]

/-- C96: for a pipeline of character converters, the number of texts that come out as a given text is the
product, over its characters, of the number `n d` of characters that become this one. -/
theorem C96_tables {c : Chanoma} (hc : ∀ m ∈ c.modifiers, ∃ x, m = .characterConverter x) :
    ∃ n : Char → Nat, (∀ d, ∃ cs : List Char, cs.Nodup ∧
      (∀ ch, ch ∈ cs ↔ ∀ σs, c.normalize σs false [ch] = .ok [d]) ∧ cs.length = n d) ∧
    ∀ out, ∃ ts, c.Sources out ts ∧ ts.length = out.foldr (fun d k => n d * k) 1 := by
  have hm := converters_map hc
  obtain ⟨all, ha, hall⟩ := exists_all_chars
  have hn : ∀ d, ∃ cs : List Char, cs.Nodup ∧ (∀ ch, ch ∈ cs ↔ c.onChar ch = d) ∧
      cs.length = (all.filter fun ch => c.onChar ch = d).length :=
    fun d => ⟨_, ha.sublist List.filter_sublist, fun ch => by simp [hall], rfl⟩
  refine ⟨fun d => (all.filter fun ch => c.onChar ch = d).length, fun d => ?_, fun out => ?_⟩
  · obtain ⟨cs, h1, h2, h3⟩ := hn d
    refine ⟨cs, h1, fun ch => ?_, h3⟩
    rw [h2]
    simp only [hm, List.map_cons, List.map_nil, Outcome.ok.injEq, List.cons.injEq, and_true]
    exact ⟨fun h _ => h, fun h => h fun _ => .insertion⟩
  · obtain ⟨ts, h1, h2, h3⟩ := texts_product hn out
    refine ⟨ts, ⟨h1, fun t => ?_⟩, h3⟩
    rw [h2]
    simp only [hm, Outcome.ok.injEq]
    exact ⟨fun h _ => h, fun h => h fun _ => .insertion⟩

/-- A pipeline as in `C96_tables`: with `x` to `y`, `x` and `y` become `y` and nothing becomes `x`. -/
example (σs : Nat → Oracle) : let c := Chanoma.mk [.characterConverter (.fromMap (HMap.collect [('x', 'y')]))]
    (∀ m ∈ c.modifiers, ∃ x, m = .characterConverter x) ∧
    c.normalize σs false ['x'] = .ok ['y'] ∧ c.normalize σs false ['y'] = .ok ['y'] := by
  have hc : ∀ m ∈ (Chanoma.mk [.characterConverter (.fromMap (HMap.collect [('x', 'y')]))]).modifiers,
      ∃ x, m = .characterConverter x := fun m hm => ⟨_, List.mem_singleton.1 hm⟩
  refine ⟨hc, ?_, ?_⟩ <;> rw [converters_map hc] <;> decide

/-! ### The preset -/

theorem presetFold_source {ch d : Char} (h : presetFold ch = d) (hne : ch ≠ d) :
    hasVariant d = true ∧ presetFold d = d := by
  have hc := presetFold_ne (c := ch) (by rw [h]; exact Ne.symm hne)
  have key : ∀ n ∈ presetCodes, hasVariant (presetFold (Char.ofNat n)) = true ∧
      presetFold (presetFold (Char.ofNat n)) = presetFold (Char.ofNat n) := by decide +kernel
  have := key _ hc
  rwa [Char.ofNat_toNat, h] at this

theorem presetFold_inj {a b : Char} (ha : presetFold a ≠ a) (hb : presetFold b ≠ b)
    (h : presetFold a = presetFold b) : a = b := by
  have key : ∀ n ∈ presetCodes, ∀ m ∈ presetCodes, presetFold (Char.ofNat n) = presetFold (Char.ofNat m) → n = m := by
    decide +kernel
  have := key _ (presetFold_ne ha) _ (presetFold_ne hb) (by rwa [Char.ofNat_toNat, Char.ofNat_toNat])
  rw [← Char.ofNat_toNat a, this, Char.ofNat_toNat]

theorem hasVariant_source {d : Char} (h : hasVariant d = true) : ∃ ch, ch ≠ d ∧ presetFold ch = d := by
  have key : ∀ d ∈ (List.range' 0x20 0x5F).map Char.ofNat ++ '¥' :: fullKana.filter (· ≠ 'ー'),
      ∃ n ∈ presetCodes, Char.ofNat n ≠ d ∧ presetFold (Char.ofNat n) = d := by decide +kernel
  obtain ⟨n, -, h1⟩ := key d (by
    simp only [hasVariant, decide_eq_true_eq] at h
    rcases h with h | rfl | h
    · refine List.mem_append_left _ (List.mem_map.2 ⟨d.toNat, List.mem_range'_1.2 ⟨h.1, by omega⟩, Char.ofNat_toNat d⟩)
    · exact List.mem_append_right _ (by simp)
    · refine List.mem_append_right _ (List.mem_cons_of_mem _ (List.mem_filter.2 ⟨h.1, by simpa using h.2⟩)))
  exact ⟨_, h1⟩

/-- C96: a text without characters that the preset replaces comes from exactly two to the power of `k` texts, where
`k` counts its characters with a variant; a text with such characters comes from none. -/
theorem C96_preset (σ : Oracle) (c : Chanoma) (hc : Chanoma.preset σ = .ok c) (out : Str) :
    ((∀ ch ∈ out, presetFold ch = ch) → ∃ ts, c.Sources out ts ∧ ts.length = 2 ^ out.countP hasVariant) ∧
    ((∃ ch ∈ out, presetFold ch ≠ ch) → c.Sources out []) := by
  obtain ⟨c', h1, h2⟩ := C07_preset σ
  rw [hc] at h1; cases h1
  have src : ∀ ts : List Str, ts.Nodup → (∀ t, t ∈ ts ↔ t.map presetFold = out) → c.Sources out ts := by
    intro ts h3 h4
    refine ⟨h3, fun t => ?_⟩
    rw [h4]
    simp only [h2, Outcome.ok.injEq]
    exact ⟨fun h _ => h, fun h => h fun _ => .insertion⟩
  constructor
  · intro hout
    obtain ⟨ts, h3, h4, h5⟩ := texts_product (g := presetFold)
      (n := fun d => if presetFold d = d then (if hasVariant d = true then 2 else 1) else 0) (fun d => by
        by_cases hd : presetFold d = d
        · by_cases hv : hasVariant d = true
          · obtain ⟨ch, hne, e⟩ := hasVariant_source hv
            refine ⟨[d, ch], by simp [Ne.symm hne], fun x => ?_, by simp [hd, hv]⟩
            simp only [List.mem_cons, List.not_mem_nil, or_false]
            constructor
            · rintro (rfl | rfl)
              · exact hd
              · exact e
            · intro hx
              by_cases hxd : x = d
              · exact .inl hxd
              · exact .inr (presetFold_inj (by rw [hx]; exact Ne.symm hxd) (by rw [e]; exact Ne.symm hne) (hx.trans e.symm))
          · refine ⟨[d], by simp, fun x => ?_, by simp [hd, hv]⟩
            rw [List.mem_singleton]
            exact ⟨fun e => e ▸ hd, fun hx => Classical.byContradiction fun hne => hv (presetFold_source hx hne).1⟩
        · refine ⟨[], by simp, fun x => ?_, by simp [hd]⟩
          simp only [List.not_mem_nil, false_iff]
          intro hx
          by_cases hxd : x = d
          · exact hd (hxd ▸ hx)
          · exact hd (presetFold_source hx hxd).2) out
    refine ⟨ts, src ts h3 h4, ?_⟩
    rw [h5]
    clear h3 h4 h5 src
    induction out with
    | nil => rfl
    | cons d out ih =>
      rw [List.foldr_cons, ih fun ch hch => hout ch (by simp [hch]), if_pos (hout d (by simp)), List.countP_cons]
      split
      · rw [Nat.pow_succ, Nat.mul_comm]
      · simp
  · rintro ⟨ch, hch, hne⟩
    refine src [] (by simp) fun t => ?_
    simp only [List.not_mem_nil, false_iff]
    rintro rfl
    obtain ⟨a, -, rfl⟩ := List.mem_map.1 hch
    by_cases h : presetFold a = a
    · exact hne (by rw [h, h])
    · exact hne (presetFold_source rfl (Ne.symm h)).2

/-- `C96_preset` at two texts: `a ー` comes from four texts, `ａ` from none. -/
example (σ : Oracle) : ∃ c, Chanoma.preset σ = .ok c ∧ (∃ ts, c.Sources (c! "a ー") ts ∧ ts.length = 4) ∧
    c.Sources (c! "ａ") [] := by
  obtain ⟨c, h, -⟩ := C07_preset σ
  exact ⟨c, h, (C96_preset σ c h _).1 (by decide +kernel), (C96_preset σ c h _).2 ⟨'ａ', by decide, by decide +kernel⟩⟩

/-! ### The other modifiers -/

theorem neologdn_trailing (t : Str) (k : Nat) : neologdnSpec (t ++ List.replicate k ' ') = neologdnSpec t := by
  have e : (List.replicate k ' ').map neologdnFold = List.replicate k ' ' := by
    rw [List.map_replicate]; congr 1
  unfold neologdnSpec
  rw [List.map_append, e, squeeze_not_mem' (fun h => absurd (List.eq_of_mem_replicate h) (by decide)),
    ← dotted_eq, ← dotted_eq, dotted_eq_dGo, dotted_eq_dGo, dGo_trailing]

/-- C96: trim, the dotted-space rule, neologdn and every eliminator that deletes anything make each of
their results from arbitrarily long texts. -/
theorem C96_long (σ : Oracle) (k v : YValue) (s : Step) (hd : Describes k v s)
    (hs : s = .trim ∨ s = .spaces ∨ s = .neologdn ∨ ∃ cs, cs ≠ [] ∧ s = .eliminate cs) :
    ∃ m, ModifierKind.fromYaml σ k v = .ok m ∧ ∀ τ text out, m.modify τ text = .ok out →
      ∀ n, ∃ text', n ≤ text'.length ∧ ∀ τ', m.modify τ' text' = .ok out := by
  obtain ⟨m, h1, h2⟩ := describes_ok hd σ
  refine ⟨m, h1, fun τ text out ho n => ?_⟩
  have hl : ∀ r, s ≠ .ligature r := by
    rintro r rfl
    rcases hs with h | h | h | ⟨_, -, h⟩ <;> cases h
  have hf := step_function hl h2.2
  rw [hf, Outcome.ok.injEq] at ho
  simp only [hf, Outcome.ok.injEq]
  rcases hs with rfl | rfl | rfl | ⟨cs, hcs, rfl⟩
  · refine ⟨text ++ List.replicate n ' ', by simp, fun _ => ?_⟩
    rw [← ho]
    show trimModify _ = trimModify _
    obtain ⟨i, j, e, h3, h4⟩ := trim_eq text
    obtain ⟨i', j', e', h5, h6⟩ := trim_eq (text ++ List.replicate n ' ')
    refine trim_unique (a := i') (b := j') (a' := i) (b' := j + n) (e'.symm.trans ?_) h5 h6 h3 h4
    rw [← List.replicate_append_replicate, ← List.append_assoc, ← e]
  · refine ⟨text ++ List.replicate n ' ', by simp, fun _ => ?_⟩
    rw [← ho]
    exact dGo_trailing text n false false
  · exact ⟨text ++ List.replicate n ' ', by simp, fun _ => by rw [← ho]; exact neologdn_trailing text n⟩
  · cases cs with
    | nil => exact absurd rfl hcs
    | cons d cs =>
      refine ⟨text ++ List.replicate n d, by simp, fun _ => ?_⟩
      rw [← ho]
      show (text ++ List.replicate n d).filter _ = text.filter _
      rw [List.filter_append]
      simp

theorem squeeze_keeps {c : Char} {t : Str} (h : c ∈ t) : c ∈ squeeze c t := by
  induction t with
  | nil => exact h
  | cons a t ih =>
    rw [squeeze]
    split
    · rename_i e
      exact ih (List.mem_of_mem_head? e.2)
    · rcases List.mem_cons.1 h with rfl | h
      · exact List.mem_cons_self
      · exact List.mem_cons_of_mem _ (ih h)

/-- C96: a reducer makes a result from arbitrarily long texts exactly if the character it reduces is in it;
otherwise it makes it from itself only. -/
theorem C96_reducer (c : Char) (σ : Oracle) (text out : Str)
    (h : (ModifierKind.consecutiveCharacterReducer ⟨c⟩).modify σ text = .ok out) :
    (c ∈ out → ∀ n, ∃ text', n ≤ text'.length ∧
      ∀ τ, (ModifierKind.consecutiveCharacterReducer ⟨c⟩).modify τ text' = .ok out) ∧
    (c ∉ out → text = out) := by
  simp only [ModifierKind.modify, reducer_eq, Outcome.ok.injEq] at h ⊢
  constructor
  · intro hc n
    obtain ⟨u, v, e⟩ := List.append_of_mem hc
    refine ⟨u ++ List.replicate n c ++ c :: v, by simp; omega, fun _ => ?_⟩
    have hfix : squeeze c out = out := by rw [← h]; exact squeeze_idem c text
    rw [← hfix, e]
    have : ∀ n, squeeze c (u ++ List.replicate n c ++ c :: v) = squeeze c (u ++ c :: v) := by
      intro n
      induction n with
      | zero => simp
      | succ n ih =>
        rw [← ih, List.append_assoc, List.append_assoc]
        clear ih
        have h1 : squeeze c (List.replicate (n + 1) c ++ c :: v) = squeeze c (List.replicate n c ++ c :: v) := by
          rw [List.replicate_succ, List.cons_append]
          refine squeeze_pos ?_
          cases n <;> simp [List.replicate_succ]
        exact squeeze_congr rfl h1
    exact this n
  · intro hc
    have : c ∉ text := fun hm => hc (by rw [← h]; exact squeeze_keeps hm)
    rw [← h, squeeze_not_mem this]

/-- Results as in `C96_reducer`, with and without the character. -/
example (σ : Oracle) : (ModifierKind.consecutiveCharacterReducer ⟨'ー'⟩).modify σ (c! "アーー") = .ok (c! "アー") ∧
    (ModifierKind.consecutiveCharacterReducer ⟨'ー'⟩).modify σ (c! "ああ") = .ok (c! "ああ") := by
  simp only [ModifierKind.modify, reducer_eq]; decide

/-- Descriptions as in `C96_long`. -/
example : (∃ k v, Describes k v .trim) ∧ (∃ k v, Describes k v .spaces) ∧ (∃ k v, Describes k v .neologdn) ∧
    ∃ k v, Describes k v (.eliminate ['a']) :=
  ⟨⟨_, _, .trim⟩, ⟨_, _, .spaces⟩, ⟨_, _, .neologdn⟩, ⟨_, _, .eliminate [('a', [])]⟩⟩

end Chanoma
